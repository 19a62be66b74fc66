import Verif.Load.Store
/-! Helper proofs for the table files (no property statements here). -/
namespace Trident.Load

theorem encBE_snoc (w n : Nat) : encBE (w + 1) n = encBE w (n / 256) ++ [UInt8.ofNat n] := by
  induction w generalizing n with
  | zero => simp [encBE]
  | succ w ih =>
    rw [encBE, ih, encBE, List.cons_append]
    congr 1
    rw [Nat.pow_succ, Nat.mul_comm, Nat.div_div_eq_div_mul]

theorem encBE_length (w n : Nat) : (encBE w n).length = w := by
  induction w with
  | zero => rfl
  | succ w ih => simp [encBE, ih]

theorem u8_ofNat (n : Nat) : (UInt8.ofNat n).toNat = n % 256 := by simp

theorem mod_pow_succ' (n w : Nat) : n / 256 % 256 ^ w * 256 + n % 256 = n % 256 ^ (w + 1) := by
  rw [Nat.pow_succ, Nat.mul_comm (256 ^ w) 256, Nat.mod_mul]
  omega

theorem rdU_enc' {m a w n} (h : Placed m a (encBE w n)) : rdU m a w = n % 256 ^ w := by
  induction w generalizing n with
  | zero => simp [rdU, Nat.mod_one]
  | succ w ih =>
    rw [encBE_snoc, placed_append] at h
    have h2 := h.2 0 (by simp)
    rw [encBE_length] at h2
    simp only [Nat.add_zero, List.getElem_cons_zero] at h2
    rw [rdU, ih h.1, h2, u8_ofNat, mod_pow_succ']

theorem rdU_enc {m a w n} (h : Placed m a (encBE w n)) (hn : n < 256 ^ w) : rdU m a w = n := by
  rw [rdU_enc' h, Nat.mod_eq_of_lt hn]

theorem decBE_enc' (w n : Nat) : decBE (encBE w n) = n % 256 ^ w := by
  induction w generalizing n with
  | zero => simp [decBE, encBE, Nat.mod_one]
  | succ w ih =>
    have := ih (n / 256)
    unfold decBE at this ⊢
    rw [encBE_snoc, List.foldl_append, this]
    simp only [List.foldl_cons, List.foldl_nil, u8_ofNat]
    exact mod_pow_succ' n w

/-- A table as handed to the store. -/
structure Tbl where
  key : Nat
  strat : Nat
  bytes : List UInt8
deriving DecidableEq, Repr

/-- `startAppend`, the appends and `stopAppend` for one table. -/
def Store.add (maxSize : Nat) (t : Tbl) (s : Store) : Store × Nat × Nat :=
  let r := s.startAppend maxSize t.key t.strat
  (r.1.write t.bytes, r.2)

/-- Marks of tables written one after the other from position `off` on. -/
def marksFrom (off : Nat) : List Tbl → List Mark
  | [] => []
  | t :: ts => ⟨t.key, off, t.strat⟩ :: marksFrom (off + t.bytes.length) ts

/-- The file with the given tables. -/
def fileOf (ts : List Tbl) : DataFile := ⟨ts.flatMap (·.bytes), marksFrom 0 ts⟩

theorem marksFrom_append (off : Nat) (ts us : List Tbl) :
    marksFrom off (ts ++ us) = marksFrom off ts ++ marksFrom (off + (ts.flatMap (·.bytes)).length) us := by
  induction ts generalizing off with
  | nil => simp [marksFrom]
  | cons t ts ih => simp [marksFrom, ih, Nat.add_assoc]

theorem marksFrom_length (off : Nat) (ts : List Tbl) : (marksFrom off ts).length = ts.length := by
  induction ts generalizing off with
  | nil => rfl
  | cons t ts ih => simp [marksFrom, ih]

/-- The store consists of files with the tables `tss` and the current file with `cur`. -/
def Store.Is (s : Store) (tss : List (List Tbl)) (cur : List Tbl) : Prop :=
  s.done = tss.map fileOf ∧ s.cur = fileOf cur

theorem Store.Is.add {s : Store} {tss cur} (h : s.Is tss cur) (maxSize : Nat) (t : Tbl) :
    (s.cur.bytes.length ≤ maxSize ∧ (s.add maxSize t).1.Is tss (cur ++ [t]) ∧
        (s.add maxSize t).2 = (tss.length, cur.length)) ∨
      (cur ≠ [] ∧ (s.add maxSize t).1.Is (tss ++ [cur]) [t] ∧ (s.add maxSize t).2 = (tss.length + 1, 0)) := by
  obtain ⟨done, c⟩ := s
  obtain ⟨h1, h2⟩ := h
  simp only at h1 h2
  subst h1 h2
  by_cases hr : (fileOf cur).bytes.length > maxSize
  · refine .inr ⟨?_, ?_, ?_⟩
    · rintro rfl
      simp [fileOf] at hr
    · simp only [Store.add, Store.startAppend, if_pos hr, Store.write, Store.Is]
      simp [fileOf, marksFrom]
    · simp only [Store.add, Store.startAppend, if_pos hr]
      simp
  · refine .inl ⟨by simpa using hr, ?_, ?_⟩
    · simp only [Store.add, Store.startAppend, if_neg hr, Store.write, Store.Is]
      simp [fileOf, marksFrom_append, marksFrom]
    · simp only [Store.add, Store.startAppend, if_neg hr]
      simp [fileOf, marksFrom_length]

/-! ## Reading the marks -/

theorem Mark.enc_length (k : Mark) : k.enc.length = 11 := by
  simp [Mark.enc, encBE_length]

theorem marks_length (ms : List Mark) : (ms.flatMap Mark.enc).length = 11 * ms.length := by
  induction ms with
  | nil => rfl
  | cons k ms ih => simp only [List.flatMap_cons, List.length_append, Mark.enc_length, ih, List.length_cons]; omega

theorem placed_getElem {m a} {ms : List Mark} (h : Placed m a (ms.flatMap Mark.enc)) {i : Nat} (hi : i < ms.length) :
    Placed m (a + 11 * i) ms[i].enc := by
  induction ms generalizing a i with
  | nil => simp at hi
  | cons k ms ih =>
    rw [List.flatMap_cons, placed_append, Mark.enc_length] at h
    cases i with
    | zero => exact h.1
    | succ i =>
      have := ih h.2 (i := i) (by simpa using hi)
      rw [show a + 11 * (i + 1) = a + 11 + 11 * i by omega]
      exact this

/-- The numbers of a mark fit in its fields. -/
def Mark.Fits (k : Mark) : Prop := k.key < 2 ^ 40 ∧ k.pos < 2 ^ 40 ∧ k.strat < 256

theorem placed_mark {m a} {k : Mark} (h : Placed m a k.enc) (hf : k.Fits) :
    rdU m a 5 = k.pos ∧ rdU m (a + 5) 5 = k.key ∧ (m (a + 10)).toNat = k.strat := by
  unfold Mark.enc at h
  rw [List.append_assoc, placed_append, placed_append] at h
  obtain ⟨h1, h2, h3⟩ := h
  rw [encBE_length] at h2 h3
  rw [encBE_length] at h3
  have h4 := h3 0 (by simp)
  simp only [List.getElem_cons_zero] at h4
  refine ⟨rdU_enc h1 hf.2.1, rdU_enc h2 hf.1, ?_⟩
  rw [show a + 10 = a + 5 + 5 + 0 by omega, h4, u8_ofNat, Nat.mod_eq_of_lt hf.2.2]

theorem flatMap_bytes_le {ts : List Tbl} {i : Nat} (hi : i < ts.length) :
    ((ts.take i).flatMap (·.bytes)).length + ts[i].bytes.length ≤ (ts.flatMap (·.bytes)).length := by
  induction ts generalizing i with
  | nil => simp at hi
  | cons t ts ih =>
    cases i with
    | zero => simp
    | succ i =>
      have := ih (i := i) (by simpa using hi)
      simp only [List.take_succ_cons, List.flatMap_cons, List.length_append, List.getElem_cons_succ] at this ⊢
      omega

theorem take_succ_len {ts : List Tbl} {i : Nat} (h : i < ts.length) : ((ts.take (i + 1)).flatMap (·.bytes)).length =
    ((ts.take i).flatMap (·.bytes)).length + ts[i].bytes.length := by
  have := congrArg (fun l : List Tbl => (l.flatMap (·.bytes)).length) (List.take_append_getElem h)
  simp only [List.flatMap_append, List.length_append, List.flatMap_cons, List.flatMap_nil, List.append_nil] at this
  exact this.symm

theorem marksFrom_getElem {ts : List Tbl} (off : Nat) {i : Nat} (hi : i < ts.length) :
    (marksFrom off ts)[i]'(by rw [marksFrom_length]; exact hi) =
      ⟨ts[i].key, off + ((ts.take i).flatMap (·.bytes)).length, ts[i].strat⟩ := by
  induction ts generalizing off i with
  | nil => simp at hi
  | cons t ts ih =>
    cases i with
    | zero => simp [marksFrom]
    | succ i =>
      simp only [marksFrom, List.getElem_cons_succ, List.take_succ_cons, List.flatMap_cons, List.length_append]
      rw [ih _ (by simpa using hi)]
      simp [Nat.add_assoc]

theorem placed_table {m a} {ts : List Tbl} (h : Placed m a (ts.flatMap (·.bytes))) {i : Nat} (hi : i < ts.length) :
    Placed m (a + ((ts.take i).flatMap (·.bytes)).length) ts[i].bytes := by
  induction ts generalizing a i with
  | nil => simp at hi
  | cons t ts ih =>
    rw [List.flatMap_cons, placed_append] at h
    cases i with
    | zero => simpa using h.1
    | succ i =>
      have := ih h.2 (i := i) (by simpa using hi)
      simp only [List.take_succ_cons, List.flatMap_cons, List.length_append, List.getElem_cons_succ]
      rw [← Nat.add_assoc]
      exact this

/-- The files of the store are mapped: data files as they are, the `.idx` files with the marks. -/
def Mapped (m : Mem) (M : Maps) (fs : List DataFile) : Prop :=
  M.nfiles = fs.length ∧ ∀ f (h : f < fs.length), Placed m (M.data f) fs[f].bytes ∧
    Placed m (M.idx f) (storeFileIndex none fs[f].marks) ∧ M.size f = fs[f].bytes.length

/-- What the fields of an `.idx` file can hold. -/
def TblFits (ts : List Tbl) : Prop :=
  (ts.flatMap (·.bytes)).length < 2 ^ 40 ∧ ts.length < 2 ^ 63 ∧ ∀ t ∈ ts, t.key < 2 ^ 40 ∧ t.strat < 256

theorem TblFits.mark {ts : List Tbl} (h : TblFits ts) {i : Nat} (hi : i < ts.length) :
    ((fileOf ts).marks[i]'(by rw [fileOf, marksFrom_length]; exact hi)).Fits := by
  have e := marksFrom_getElem 0 hi
  have hl := flatMap_bytes_le hi
  have hk := h.2.2 ts[i] (List.getElem_mem hi)
  have h1 := h.1
  simp only [fileOf, e, Mark.Fits, Nat.zero_add]
  exact ⟨hk.1, by omega, hk.2⟩

theorem parse_eq {m idx size} {ts : List Tbl} (h : Placed m idx (storeFileIndex none (fileOf ts).marks)) (hf : TblFits ts) :
    FileMarks.parse m idx size = ⟨idx + 8, idx + 8 + ts.length * 11, ts.length, size⟩ ∧
      Placed m (idx + 8) ((fileOf ts).marks.flatMap Mark.enc) := by
  simp only [storeFileIndex, encCount, placed_append, encBE_length] at h
  have hl : (fileOf ts).marks.length = ts.length := by rw [fileOf, marksFrom_length]
  have := rdU_enc h.1 (by rw [hl]; have := hf.2.1; omega)
  refine ⟨?_, h.2⟩
  simp only [FileMarks.parse, this, hl]

theorem getTable_eq {m : Mem} {M : Maps} {f : Nat} {ts : List Tbl} (hd : Placed m (M.data f) (fileOf ts).bytes)
    (hi : Placed m (M.idx f) (storeFileIndex none (fileOf ts).marks)) (hs : M.size f = (fileOf ts).bytes.length)
    (hf : TblFits ts) {i : Nat} (h : i < ts.length) :
    let a := M.data f + ((ts.take i).flatMap (·.bytes)).length
    M.getTable m f i = (a, a + ts[i].bytes.length) ∧ Placed m a ts[i].bytes := by
  intro a
  refine ⟨?_, placed_table hd h⟩
  obtain ⟨e1, e2⟩ := parse_eq (size := M.size f) hi hf
  have hlen : (fileOf ts).marks.length = ts.length := by rw [fileOf, marksFrom_length]
  have hm := placed_mark (placed_getElem e2 (i := i) (by omega)) (hf.mark h)
  have hpos : ((fileOf ts).marks[i]'(by omega)).pos = ((ts.take i).flatMap (·.bytes)).length := by
    simp only [fileOf, marksFrom_getElem 0 h, Nat.zero_add]
  unfold Maps.getTable
  rw [e1]
  simp only [FileMarks.getPos]
  rw [hm.1, hpos]
  refine Prod.ext rfl ?_
  simp only
  congr 1
  by_cases hl : i + 1 = ts.length
  · rw [if_pos hl, hs]
    have e : (fileOf ts).bytes.length = ((ts.take i).flatMap (·.bytes)).length + ts[i].bytes.length := by
      show (ts.flatMap (·.bytes)).length = _
      rw [← take_succ_len h, hl, List.take_length]
    omega
  · rw [if_neg hl]
    have h' : i + 1 < ts.length := by omega
    have hm' := placed_mark (placed_getElem e2 (i := i + 1) (by omega)) (hf.mark h')
    rw [hm'.1]
    have hpos' : ((fileOf ts).marks[i + 1]'(by omega)).pos = ((ts.take (i + 1)).flatMap (·.bytes)).length := by
      simp only [fileOf, marksFrom_getElem 0 h', Nat.zero_add]
    rw [hpos', take_succ_len h]
    omega

/-! ## Enumerating tables -/

/-- The tables of a file with file number and mark. -/
def enumFile (f : Nat) : Nat → List Tbl → List (Tbl × Nat × Nat)
  | _, [] => []
  | i, t :: ts => (t, f, i) :: enumFile f (i + 1) ts

/-- The tables of all files with file number and mark. -/
def enumAll : Nat → List (List Tbl) → List (Tbl × Nat × Nat)
  | _, [] => []
  | f, ts :: tss => enumFile f 0 ts ++ enumAll (f + 1) tss

theorem enumFile_append (f i : Nat) (ts us : List Tbl) :
    enumFile f i (ts ++ us) = enumFile f i ts ++ enumFile f (i + ts.length) us := by
  induction ts generalizing i with
  | nil => simp [enumFile]
  | cons t ts ih => simp [enumFile, ih, Nat.add_comm, Nat.add_left_comm]

theorem enumAll_append (f : Nat) (a b : List (List Tbl)) :
    enumAll f (a ++ b) = enumAll f a ++ enumAll (f + a.length) b := by
  induction a generalizing f with
  | nil => simp [enumAll]
  | cons t a ih => simp [enumAll, ih, Nat.add_comm, Nat.add_left_comm]

theorem enumFile_fst (f i : Nat) (ts : List Tbl) : (enumFile f i ts).map (·.1) = ts := by
  induction ts generalizing i with
  | nil => rfl
  | cons t ts ih => simp [enumFile, ih]

theorem enumAll_fst (f : Nat) (tss : List (List Tbl)) : (enumAll f tss).map (·.1) = tss.flatten := by
  induction tss generalizing f with
  | nil => rfl
  | cons t ts ih => simp [enumAll, ih, enumFile_fst]

theorem mem_enumFile {f i : Nat} {ts : List Tbl} {t f' i'} (h : (t, f', i') ∈ enumFile f i ts) :
    f' = f ∧ i ≤ i' ∧ ts[i' - i]? = some t := by
  induction ts generalizing i with
  | nil => simp [enumFile] at h
  | cons u ts ih =>
    rw [enumFile, List.mem_cons] at h
    rcases h with h | h
    · simp only [Prod.mk.injEq] at h
      obtain ⟨rfl, rfl, rfl⟩ := h
      simp
    · obtain ⟨a, b, c⟩ := ih h
      refine ⟨a, by omega, ?_⟩
      rw [show i' - i = (i' - (i + 1)) + 1 by omega, List.getElem?_cons_succ]
      exact c

theorem mem_enumAll {f : Nat} {tss : List (List Tbl)} {t f' i'} (h : (t, f', i') ∈ enumAll f tss) :
    f ≤ f' ∧ ∃ ts, tss[f' - f]? = some ts ∧ ts[i']? = some t := by
  induction tss generalizing f with
  | nil => simp [enumAll] at h
  | cons ts tss ih =>
    rw [enumAll, List.mem_append] at h
    rcases h with h | h
    · obtain ⟨rfl, -, h⟩ := mem_enumFile h
      exact ⟨Nat.le_refl _, ts, by simp, by simpa using h⟩
    · obtain ⟨a, us, b, c⟩ := ih h
      refine ⟨by omega, us, ?_, c⟩
      rw [show f' - f = (f' - (f + 1)) + 1 by omega, List.getElem?_cons_succ]
      exact b

/-- Tables appended one after the other, with the coordinates handed out. -/
def Store.addAll (maxSize : Nat) : List Tbl → Store → Store × List (Nat × Nat)
  | [], s => (s, [])
  | t :: ts, s =>
    let r := s.add maxSize t
    let q := Store.addAll maxSize ts r.1
    (q.1, r.2 :: q.2)

theorem Store.Is.addAll {maxSize : Nat} {ts : List Tbl} : ∀ {s : Store} {tss cur}, s.Is tss cur → (∀ x ∈ tss, x ≠ []) →
    ∃ tss' cur', (s.addAll maxSize ts).1.Is tss' cur' ∧ (∀ x ∈ tss', x ≠ []) ∧ ((cur ≠ [] ∨ ts ≠ []) → cur' ≠ []) ∧
      enumAll 0 (tss' ++ [cur']) = enumAll 0 (tss ++ [cur]) ++ ts.zip (s.addAll maxSize ts).2 ∧
      (s.addAll maxSize ts).2.length = ts.length := by
  induction ts with
  | nil => intro s tss cur h hne; exact ⟨tss, cur, h, hne, by simp, by simp [Store.addAll], rfl⟩
  | cons t ts ih =>
    intro s tss cur h hne
    rcases h.add maxSize t with ⟨-, h', hc⟩ | ⟨hcur, h', hc⟩
    · obtain ⟨tss', cur', a, b, c, d, e⟩ := ih h' hne
      refine ⟨tss', cur', a, b, fun _ => c (.inl (by simp)), ?_, by simp [Store.addAll, e]⟩
      rw [d]
      simp [Store.addAll, hc, enumAll_append, enumAll, enumFile_append, enumFile]
    · obtain ⟨tss', cur', a, b, c, d, e⟩ := ih h' (by
        intro x hx
        rcases List.mem_append.1 hx with hx | hx
        · exact hne x hx
        · simp at hx; subst hx; exact hcur)
      refine ⟨tss', cur', a, b, fun _ => c (.inl (by simp)), ?_, by simp [Store.addAll, e]⟩
      rw [d]
      simp [Store.addAll, hc, enumAll_append, enumAll, enumFile]

/-! ## `TermItr` -/

/-- What a `TermItr` shows for a table. -/
def termRow (x : Tbl × Nat × Nat) : Nat × Nat × Int × Nat := (x.1.key, x.2.1, x.2.2, x.1.strat)

theorem termIt_file {m : Mem} {M : Maps} {f : Nat} {ts : List Tbl} (hi : Placed m (M.idx f) (storeFileIndex none (fileOf ts).marks))
    (hf : TblFits ts) {rest} (hrest : ∀ mk k, Yields (TermIt.itr m M) ⟨f, mk, M.idx f + 8 + ts.length * 11,
      M.idx f + 8 + ts.length * 11, k⟩ rest) :
    ∀ n i, ts.length - i = n → i ≤ ts.length → ∀ k, Yields (TermIt.itr m M)
      ⟨f, (i : Int) - 1, M.idx f + 8 + i * 11, M.idx f + 8 + ts.length * 11, k⟩
      ((enumFile f i (ts.drop i)).map termRow ++ rest) := by
  obtain ⟨-, e2⟩ := parse_eq (size := 0) hi hf
  have hlen : (fileOf ts).marks.length = ts.length := by rw [fileOf, marksFrom_length]
  intro n
  induction n with
  | zero =>
    intro i hn hi k
    have : i = ts.length := by omega
    subst this
    simp only [List.drop_length, enumFile, List.map_nil, List.nil_append]
    exact hrest _ _
  | succ n ih =>
    intro i hn hi k
    have h : i < ts.length := by omega
    rw [List.drop_eq_getElem_cons h, enumFile, List.map_cons, List.cons_append]
    have hm := placed_mark (placed_getElem e2 (i := i) (by omega)) (hf.mark h)
    have e := marksFrom_getElem 0 h
    have hne : ¬ (M.idx f + 8 + i * 11 = M.idx f + 8 + ts.length * 11) := by omega
    have hh : (TermIt.itr m M).hasNext ⟨f, (i : Int) - 1, M.idx f + 8 + i * 11, M.idx f + 8 + ts.length * 11, k⟩ =
        (true, ⟨f, (i : Int) - 1, M.idx f + 8 + i * 11, M.idx f + 8 + ts.length * 11, k⟩) := by
      show TermIt.hasNext m M _ = _
      simp only [TermIt.hasNext, if_neg hne]
    rw [yields_cons, hh]
    refine ⟨rfl, ?_, ?_⟩
    · show (rdU m (M.idx f + 8 + i * 11 + 5) 5, f, (i : Int) - 1 + 1,
        (m (M.idx f + 8 + i * 11 + 11 - 1)).toNat) = termRow (ts[i], f, i)
      have h2 := hm.2.1
      have h3 := hm.2.2
      rw [Nat.mul_comm 11 i] at h2 h3
      rw [h2, show M.idx f + 8 + i * 11 + 11 - 1 = M.idx f + 8 + i * 11 + 10 by omega, h3]
      simp only [fileOf, e, termRow]
      simp
    · have := ih (i + 1) (by omega) (by omega) (rdU m (M.idx f + 8 + i * 11 + 5) 5)
      have e1 : ((i + 1 : Nat) : Int) - 1 = (i : Int) - 1 + 1 := by omega
      have e2 : M.idx f + 8 + (i + 1) * 11 = M.idx f + 8 + i * 11 + 11 := by omega
      rw [e1, e2] at this
      exact this

theorem termIt_all {m : Mem} {M : Maps} {tss : List (List Tbl)} (hn : M.nfiles = tss.length)
    (hi : ∀ f (h : f < tss.length), Placed m (M.idx f) (storeFileIndex none (fileOf tss[f]).marks))
    (hf : ∀ ts ∈ tss, TblFits ts) (hne : ∀ ts ∈ tss, ts ≠ []) :
    ∀ n f, tss.length - f = n → (h : f < tss.length) → ∀ k, Yields (TermIt.itr m M)
      ⟨f, -1, M.idx f + 8, M.idx f + 8 + tss[f].length * 11, k⟩ ((enumAll f (tss.drop f)).map termRow) := by
  intro n
  induction n with
  | zero => intro f _ h; omega
  | succ n ih =>
    intro f hnf h k
    rw [List.drop_eq_getElem_cons h, enumAll, List.map_append]
    have := termIt_file (M := M) (f := f) (ts := tss[f]) (hi f h) (hf _ (List.getElem_mem h))
      (rest := (enumAll (f + 1) (tss.drop (f + 1))).map termRow) ?_ tss[f].length 0 (by omega) (by omega) k
    · simpa using this
    · intro mk k
      by_cases hl : f + 1 < tss.length
      · have hfl := hf tss[f + 1] (List.getElem_mem hl)
        have hp := (parse_eq (size := M.size (f + 1)) (hi (f + 1) hl) hfl).1
        have hy := ih (f + 1) (by omega) hl k
        refine yields_congr' ?_ hy
        show TermIt.hasNext m M _ = TermIt.hasNext m M _
        have hpos : 0 < tss[f + 1].length := List.length_pos_iff.2 (hne _ (List.getElem_mem hl))
        simp only [TermIt.hasNext]
        rw [if_pos trivial, if_neg (by omega), if_neg (by omega), hp]
      · rw [List.drop_eq_nil_of_le (by omega)]
        refine .done ?_
        show (TermIt.hasNext m M _).1 = false
        simp only [TermIt.hasNext]
        rw [if_pos trivial, if_pos (by omega)]
where
  yields_congr' {σ α} {I : Itr σ α} {s s' : σ} {l} (h : I.hasNext s = I.hasNext s') (hy : Yields I s' l) :
      Yields I s l := by
    cases hy with
    | done h1 => exact .done (by rw [h]; exact h1)
    | step h1 h2 =>
      rw [← h] at h1 h2 ⊢
      exact .step h1 h2

end Trident.Load
