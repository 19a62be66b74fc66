import Verif.Load.TermGoto
import Verif.Load.StoreProofs
/-! Helper lemmas for jumps in the list of tables. -/
namespace Trident.Load

theorem rdU_8 (m : Mem) (a : Nat) : rdU m a 5 ≤ rdU m a 8 ∧ (1 ≤ rdU m a 5 → 2 ^ 24 ≤ rdU m a 8) := by
  have e : rdU m a 8 = ((rdU m a 5 * 256 + (m (a + 5)).toNat) * 256 + (m (a + 6)).toNat) * 256 + (m (a + 7)).toNat := rfl
  constructor
  · omega
  · intro h; omega

section
variable {m : Mem} {M : Maps} {tss : List (List Tbl)}

/-- The files of the list `tss` of lists of tables are mapped. -/
structure IdxMapped (m : Mem) (M : Maps) (tss : List (List Tbl)) : Prop where
  n : M.nfiles = tss.length
  idx : ∀ f (h : f < tss.length), Placed m (M.idx f) (storeFileIndex none (fileOf tss[f]).marks)
  fits : ∀ ts ∈ tss, TblFits ts
  ne : ∀ ts ∈ tss, ts ≠ []
  sorted : (tss.flatten.map (·.key)).Pairwise (· < ·)

variable (h : IdxMapped m M tss)
include h

theorem IdxMapped.key {f i : Nat} (hf : f < tss.length) (hi : i < tss[f].length) : rdU m (M.idx f + 8 + i * 11 + 5) 5 = tss[f][i].key := by
  have hF := h.fits _ (List.getElem_mem hf)
  obtain ⟨-, e2⟩ := parse_eq (size := 0) (h.idx f hf) hF
  have hlen : (fileOf tss[f]).marks.length = tss[f].length := by rw [fileOf, marksFrom_length]
  have hm := placed_mark (placed_getElem e2 (i := i) (by omega)) (hF.mark hi)
  have e := marksFrom_getElem 0 hi
  have h2 := hm.2.1
  rw [Nat.mul_comm 11 i] at h2
  rw [h2]
  simp only [fileOf, e]

theorem IdxMapped.file_sorted {f : Nat} (hf : f < tss.length) : (tss[f].map (·.key)).Pairwise (· < ·) :=
  h.sorted.sublist ((List.sublist_flatten_of_mem (List.getElem_mem hf)).map _)

theorem IdxMapped.lt {f i j : Nat} (hf : f < tss.length) (hij : i < j) (hj : j < tss[f].length) : tss[f][i].key < tss[f][j].key := by
  have := List.pairwise_iff_getElem.1 (h.file_sorted hf) i j (by simp; omega) (by simpa using hj) hij
  simpa using this

/-- The search within a file. -/
theorem IdxMapped.search {f : Nat} (hf : f < tss.length) (k : Int) : ∀ n i j, j - i = n → i ≤ j → j ≤ tss[f].length →
    ∃ r, i ≤ r ∧ r ≤ j ∧ TermIt.search m k (M.idx f + 8 + i * 11) (M.idx f + 8 + j * 11) = M.idx f + 8 + r * 11 ∧
      ∀ x (hx : x < tss[f].length), x < r → i ≤ x → (tss[f][x].key : Int) < k := by
  intro n
  induction n using Nat.strongRecOn with
  | _ n ih =>
    intro i j hn hij hj
    rw [TermIt.search]
    by_cases hlt : i < j
    · rw [dif_pos (by omega)]
      have e1 : (M.idx f + 8 + j * 11 - (M.idx f + 8 + i * 11)) / 11 = j - i := by omega
      have e2 : M.idx f + 8 + i * 11 + (j - i) / 2 * 11 = M.idx f + 8 + (i + (j - i) / 2) * 11 := by omega
      simp only [e1, e2]
      generalize hmid : i + (j - i) / 2 = mid
      have hm1 : i ≤ mid := by omega
      have hm2 : mid < j := by omega
      have hk := h.key hf (i := mid) (by omega)
      have h8 := (rdU_8 m (M.idx f + 8 + mid * 11 + 5)).1
      by_cases hc : ((rdU m (M.idx f + 8 + mid * 11 + 5) 8 : Nat) : Int) < k
      · rw [if_pos hc, show M.idx f + 8 + mid * 11 + 11 = M.idx f + 8 + (mid + 1) * 11 by omega]
        obtain ⟨r, r1, r2, r3, r4⟩ := ih (j - (mid + 1)) (by omega) (mid + 1) j rfl (by omega) hj
        refine ⟨r, by omega, r2, r3, fun x hx hxr hix => ?_⟩
        by_cases hxm : x ≤ mid
        · have : tss[f][x].key ≤ tss[f][mid].key := by
            rcases Nat.lt_or_eq_of_le hxm with h' | rfl
            · have := h.lt hf h' (by omega); omega
            · omega
          omega
        · exact r4 x hx hxr (by omega)
      · rw [if_neg hc]
        by_cases hc2 : ((rdU m (M.idx f + 8 + mid * 11 + 5) 8 : Nat) : Int) > k
        · rw [if_pos hc2]
          obtain ⟨r, r1, r2, r3, r4⟩ := ih (mid - i) (by omega) i mid rfl hm1 (by omega)
          exact ⟨r, r1, by omega, r3, r4⟩
        · rw [if_neg hc2]
          refine ⟨mid, hm1, by omega, rfl, fun x hx hxr hix => ?_⟩
          have := h.lt hf hxr (by omega)
          omega
    · rw [dif_neg (by omega)]
      exact ⟨j, by omega, by omega, rfl, fun x hx hxr hix => by omega⟩

/-- Below `2^24` the search does not move. -/
theorem IdxMapped.search_small {f : Nat} (hf : f < tss.length) (k : Int) (hk : k < 2 ^ 24) : ∀ n i j, j - i = n → i ≤ j → j ≤ tss[f].length →
    (∀ x (hx : x < tss[f].length), i ≤ x → 1 ≤ tss[f][x].key) →
    TermIt.search m k (M.idx f + 8 + i * 11) (M.idx f + 8 + j * 11) = M.idx f + 8 + i * 11 := by
  intro n
  induction n using Nat.strongRecOn with
  | _ n ih =>
    intro i j hn hij hj hpos
    rw [TermIt.search]
    by_cases hlt : i < j
    · rw [dif_pos (by omega)]
      have e1 : (M.idx f + 8 + j * 11 - (M.idx f + 8 + i * 11)) / 11 = j - i := by omega
      have e2 : M.idx f + 8 + i * 11 + (j - i) / 2 * 11 = M.idx f + 8 + (i + (j - i) / 2) * 11 := by omega
      simp only [e1, e2]
      generalize hmid : i + (j - i) / 2 = mid
      have hk' := h.key hf (i := mid) (by omega)
      have h8 := (rdU_8 m (M.idx f + 8 + mid * 11 + 5)).2 (by rw [hk']; exact hpos mid (by omega) (by omega))
      rw [if_neg (by omega), if_pos (by omega)]
      exact ih (mid - i) (by omega) i mid rfl (by omega) (by omega) hpos
    · rw [dif_neg (by omega)]
      have : i = j := by omega
      rw [this]

/-- The entries to come, in a state of the iterator. -/
def TermIt.Rest (M : Maps) (tss : List (List Tbl)) (s : TermIt) (l : List (Tbl × Nat × Nat)) : Prop :=
  (∃ (f i : Nat) (hf : f < tss.length), i ≤ tss[f].length ∧ s.file = f ∧ s.mark = (i : Int) - 1 ∧ s.buffer = M.idx f + 8 + i * 11 ∧
    s.endbuffer = M.idx f + 8 + tss[f].length * 11 ∧ l = enumFile f i (tss[f].drop i) ++ enumAll (f + 1) (tss.drop (f + 1))) ∨
  (l = [] ∧ s.buffer = s.endbuffer ∧ tss.length ≤ s.file)

/-- What is read from there. -/
theorem IdxMapped.yields {s : TermIt} {l : List (Tbl × Nat × Nat)} (hs : TermIt.Rest M tss s l) : Yields (TermIt.itr m M) s (l.map termRow) := by
  rcases hs with ⟨f, i, hf, hi, h1, h2, h3, h4, rfl⟩ | ⟨rfl, h1, h2⟩
  · obtain ⟨file, mark, buffer, endbuffer, key⟩ := s
    dsimp only at h1 h2 h3 h4
    subst h1 h2 h3 h4
    rw [List.map_append]
    refine termIt_file (h.idx file hf) (h.fits _ (List.getElem_mem hf)) (fun mk k => ?_) (tss[file].length - i) i rfl hi key
    by_cases hl : file + 1 < tss.length
    · have hp := (parse_eq (size := M.size (file + 1)) (h.idx (file + 1) hl) (h.fits _ (List.getElem_mem hl))).1
      have hy := termIt_all h.n h.idx h.fits h.ne _ (file + 1) rfl hl k
      refine termIt_all.yields_congr' ?_ hy
      show TermIt.hasNext m M _ = TermIt.hasNext m M _
      have hpos : 0 < tss[file + 1].length := List.length_pos_iff.2 (h.ne _ (List.getElem_mem hl))
      have := h.n
      simp only [TermIt.hasNext]
      rw [if_pos trivial, if_neg (by omega), if_neg (by omega), hp]
    · rw [List.drop_eq_nil_of_le (by omega)]
      refine .done ?_
      have := h.n
      show (TermIt.hasNext m M _).1 = false
      simp only [TermIt.hasNext]
      rw [if_pos trivial, if_pos (by omega)]
  · refine .done ?_
    have := h.n
    show (TermIt.hasNext m M _).1 = false
    simp only [TermIt.hasNext]
    rw [if_pos h1, if_pos (by omega)]

/-- The first state of a file. -/
theorem IdxMapped.rest_file {f : Nat} (hf : f < tss.length) {s : TermIt} (h1 : s.file = f) (h2 : s.mark = -1) (h3 : s.buffer = M.idx f + 8)
    (h4 : s.endbuffer = M.idx f + 8 + tss[f].length * 11) : TermIt.Rest M tss s (enumAll f (tss.drop f)) := by
  refine .inl ⟨f, 0, hf, by omega, h1, by rw [h2]; rfl, by omega, h4, ?_⟩
  rw [List.drop_eq_getElem_cons hf, enumAll, List.drop_zero]

theorem IdxMapped.rest_init (hpos : 0 < tss.length) : TermIt.Rest M tss (TermIt.init m M) (enumAll 0 tss) := by
  have hp := (parse_eq (size := M.size 0) (h.idx 0 hpos) (h.fits _ (List.getElem_mem hpos))).1
  have := h.rest_file hpos (s := TermIt.init m M) rfl rfl (by unfold TermIt.init; rw [hp]) (by unfold TermIt.init; rw [hp])
  rwa [List.drop_zero] at this

/-- Reading an entry. -/
theorem IdxMapped.rest_read {s : TermIt} {l : List (Tbl × Nat × Nat)} (hs : TermIt.Rest M tss s l) :
    TermIt.Rest M tss (TermIt.step m M s .read) l.tail := by
  have next_in : ∀ (f i : Nat) (hf : f < tss.length), i < tss[f].length → ∀ s : TermIt, s.file = f → s.mark = (i : Int) - 1 → s.buffer = M.idx f + 8 + i * 11 →
      s.endbuffer = M.idx f + 8 + tss[f].length * 11 →
      TermIt.Rest M tss (TermIt.next m s) (enumFile f i (tss[f].drop i) ++ enumAll (f + 1) (tss.drop (f + 1))).tail := by
    intro f i hf hi s h1 h2 h3 h4
    rw [List.drop_eq_getElem_cons hi, enumFile, List.cons_append, List.tail_cons]
    refine .inl ⟨f, i + 1, hf, by omega, h1, ?_, ?_, h4, rfl⟩
    · show s.mark + 1 = _; omega
    · show s.buffer + 11 = _; omega
  have hn := h.n
  rcases hs with ⟨f, i, hf, hi, h1, h2, h3, h4, rfl⟩ | ⟨rfl, h1, h2⟩
  · by_cases hil : i < tss[f].length
    · have hh : TermIt.hasNext m M s = (true, s) := by unfold TermIt.hasNext; rw [if_neg (by omega)]
      unfold TermIt.step
      simp only [hh, if_true]
      exact next_in f i hf hil s h1 h2 h3 h4
    · have hie : i = tss[f].length := by omega
      rw [hie, List.drop_length, enumFile, List.nil_append]
      by_cases hl : f + 1 < tss.length
      · have hp := (parse_eq (size := M.size (f + 1)) (h.idx (f + 1) hl) (h.fits _ (List.getElem_mem hl))).1
        have hpos : 0 < tss[f + 1].length := List.length_pos_iff.2 (h.ne _ (List.getElem_mem hl))
        have hh : TermIt.hasNext m M s = (true, { s with file := f + 1, mark := -1, buffer := M.idx (f + 1) + 8, endbuffer := M.idx (f + 1) + 8 + tss[f + 1].length * 11 }) := by
          unfold TermIt.hasNext; rw [if_pos (by rw [h3, h4, hie]), if_neg (by omega), h1, hp]
        unfold TermIt.step
        simp only [hh, if_true]
        have := next_in (f + 1) 0 hl hpos { s with file := f + 1, mark := -1, buffer := M.idx (f + 1) + 8, endbuffer := M.idx (f + 1) + 8 + tss[f + 1].length * 11 } rfl rfl rfl rfl
        rw [List.drop_zero] at this
        rw [List.drop_eq_getElem_cons hl, enumAll]
        exact this
      · have hh : TermIt.hasNext m M s = (false, { s with file := s.file + 1, mark := -1 }) := by
          unfold TermIt.hasNext; rw [if_pos (by rw [h3, h4, hie]), if_pos (by omega)]
        unfold TermIt.step
        simp only [hh, Bool.false_eq_true, if_false]
        rw [List.drop_eq_nil_of_le (by omega)]
        exact .inr ⟨rfl, by dsimp only; rw [h3, h4, hie], by dsimp only; omega⟩
  · have hh : TermIt.hasNext m M s = (false, { s with file := s.file + 1, mark := -1 }) := by
      unfold TermIt.hasNext; rw [if_pos h1, if_pos (by omega)]
    unfold TermIt.step
    simp only [hh, Bool.false_eq_true, if_false]
    exact .inr ⟨rfl, h1, by dsimp only; omega⟩

/-- A jump. -/
theorem IdxMapped.rest_jump (k : Int) : ∀ n s l, tss.length - s.file = n → TermIt.Rest M tss s l →
    ∃ pre l', l = pre ++ l' ∧ TermIt.Rest M tss (TermIt.gotoKey m M k s) l' ∧ (∀ x ∈ pre, (x.1.key : Int) < k) ∧
      ((∀ x ∈ l, (x.1.key : Int) < k) → (∃ x, x ∈ l) → l' = []) := by
  have hn := h.n
  intro n
  induction n with
  | zero =>
    intro s l hfl hs
    rcases hs with ⟨f, i, hf, hi, h1, -⟩ | ⟨rfl, h1, h2⟩
    · omega
    · refine ⟨[], [], rfl, .inr ?_, by simp, fun _ _ => rfl⟩
      rw [TermIt.gotoKey]
      dsimp only
      by_cases hk : k > (rdU m (s.endbuffer - 6) 5 : Nat)
      · rw [if_pos hk, if_neg (by omega)]
        exact ⟨rfl, rfl, h2⟩
      · rw [if_neg hk, TermIt.search, dif_neg (by omega)]
        exact ⟨rfl, rfl, h2⟩
  | succ n ih =>
    intro s l hfl hs
    rcases hs with ⟨f, i, hf, hi, h1, h2, h3, h4, rfl⟩ | ⟨rfl, h1, h2⟩
    · have hpos : 0 < tss[f].length := List.length_pos_iff.2 (h.ne _ (List.getElem_mem hf))
      have hlast : rdU m (s.endbuffer - 6) 5 = (tss[f][tss[f].length - 1]'(by omega)).key := by
        rw [h4, ← h.key hf (i := tss[f].length - 1) (by omega)]
        congr 1
        omega
      have hle : ∀ x (hx : x < tss[f].length), tss[f][x].key ≤ (tss[f][tss[f].length - 1]'(by omega)).key := by
        intro x hx
        by_cases hxe : x = tss[f].length - 1
        · subst hxe; omega
        · have := h.lt hf (i := x) (j := tss[f].length - 1) (by omega) (by omega); omega
      have hmem : ∀ j, ∀ x ∈ enumFile f j (tss[f].drop j), ∃ y, ∃ hy : y < tss[f].length, j ≤ y ∧ x.1 = tss[f][y] := by
        intro j x hx
        obtain ⟨t, f', i'⟩ := x
        obtain ⟨-, b, c⟩ := mem_enumFile hx
        rw [List.getElem?_drop] at c
        obtain ⟨hy, e⟩ := List.getElem?_eq_some_iff.1 c
        exact ⟨_, hy, by omega, e.symm⟩
      rw [TermIt.gotoKey]
      simp only [hlast]
      by_cases hk : k > ((tss[f][tss[f].length - 1]'(by omega)).key : Nat)
      · rw [if_pos hk]
        have hsm : ∀ x ∈ enumFile f i (tss[f].drop i), (x.1.key : Int) < k := by
          intro x hx
          obtain ⟨y, hy, -, e⟩ := hmem i x hx
          rw [e]
          have := hle y hy
          omega
        by_cases hl : f + 1 < tss.length
        · rw [if_pos (by omega)]
          have hp := (parse_eq (size := M.size (f + 1)) (h.idx (f + 1) hl) (h.fits _ (List.getElem_mem hl))).1
          rw [h1, hp]
          obtain ⟨pre, l', a, b, c, d⟩ := ih _ _ (by dsimp only; omega)
            (h.rest_file hl (s := { s with file := f + 1, mark := -1, buffer := M.idx (f + 1) + 8, endbuffer := M.idx (f + 1) + 8 + tss[f + 1].length * 11 }) rfl rfl rfl rfl)
          refine ⟨enumFile f i (tss[f].drop i) ++ pre, l', by rw [a, List.append_assoc], b, fun x hx => ?_, fun hall _ => d (fun x hx => hall x (by simp [hx])) ?_⟩
          · rcases List.mem_append.1 hx with hx | hx
            · exact hsm x hx
            · exact c x hx
          · have hpos' : 0 < tss[f + 1].length := List.length_pos_iff.2 (h.ne _ (List.getElem_mem hl))
            rw [List.drop_eq_getElem_cons hl, enumAll]
            cases ht : tss[f + 1] with
            | nil => rw [ht] at hpos'; simp at hpos'
            | cons t ts => exact ⟨(t, f + 1, 0), by simp [enumFile]⟩
        · rw [if_neg (by omega)]
          refine ⟨enumFile f i (tss[f].drop i), enumAll (f + 1) (tss.drop (f + 1)), rfl, .inl ⟨f, tss[f].length, hf, Nat.le_refl _, h1, ?_, h4, h4, ?_⟩, hsm, ?_⟩
          · show s.mark + (((s.endbuffer - s.buffer) / 11 : Nat) : Int) = _
            rw [h2, h3, h4]
            omega
          · rw [List.drop_length, enumFile, List.nil_append]
          · intro _ _; rw [List.drop_eq_nil_of_le (by omega)]; rfl
      · rw [if_neg hk]
        obtain ⟨r, r1, r2, r3, r4⟩ := h.search hf k _ i tss[f].length rfl hi (Nat.le_refl _)
        refine ⟨enumFile f i ((tss[f].drop i).take (r - i)), enumFile f r (tss[f].drop r) ++ enumAll (f + 1) (tss.drop (f + 1)), ?_, .inl ⟨f, r, hf, r2, h1, ?_, ?_, h4, rfl⟩, ?_, ?_⟩
        · rw [← List.append_assoc]
          congr 1
          have e := List.take_append_drop (r - i) (tss[f].drop i)
          rw [List.drop_drop, show i + (r - i) = r by omega] at e
          conv => lhs; rw [← e]
          rw [enumFile_append]
          congr 1
          rw [List.length_take, List.length_drop]
          congr 1
          omega
        · show s.mark + (((TermIt.search m k s.buffer s.endbuffer - s.buffer) / 11 : Nat) : Int) = _
          rw [h2, h3, h4, r3]
          omega
        · show TermIt.search m k s.buffer s.endbuffer = _
          rw [h3, h4, r3]
        · intro x hx
          obtain ⟨t, f', i'⟩ := x
          obtain ⟨-, b, c⟩ := mem_enumFile hx
          have c' : (tss[f].drop i)[i' - i]? = some t ∧ i' - i < r - i := by
            rw [List.getElem?_take] at c
            split at c
            · exact ⟨c, by assumption⟩
            · simp at c
          obtain ⟨c1, c2⟩ := c'
          rw [List.getElem?_drop] at c1
          obtain ⟨hy, e⟩ := List.getElem?_eq_some_iff.1 c1
          have := r4 _ hy (by omega) (by omega)
          rw [e] at this
          exact this
        · intro hall hex
          -- an entry at least `k` is left in the file, unless all were read
          by_cases hil : i < tss[f].length
          · have : ((tss[f][tss[f].length - 1]'(by omega)).key : Int) < k := by
              refine hall (tss[f][tss[f].length - 1]'(by omega), f, tss[f].length - 1) (List.mem_append.2 (.inl ?_))
              have e : ∀ (ts : List Tbl) j (y : Nat) (hy : y < ts.length), (ts[y], f, j + y) ∈ enumFile f j ts := by
                intro ts
                induction ts with
                | nil => intro j y hy; simp at hy
                | cons t ts ih =>
                  intro j y hy
                  cases y with
                  | zero => simp [enumFile]
                  | succ y =>
                    have := ih (j + 1) y (by simpa using hy)
                    rw [show j + 1 + y = j + (y + 1) by omega] at this
                    simp only [enumFile, List.getElem_cons_succ]
                    exact List.mem_cons_of_mem _ this
              have := e (tss[f].drop i) i (tss[f].length - 1 - i) (by rw [List.length_drop]; omega)
              rw [List.getElem_drop] at this
              have e3 : i + (tss[f].length - 1 - i) = tss[f].length - 1 := by omega
              simp only [e3] at this
              exact this
            exact absurd this (by omega)
          · -- the entries to come are in the files after
            have hie : i = tss[f].length := by omega
            obtain ⟨x, hx⟩ := hex
            rw [hie, List.drop_length, enumFile, List.nil_append] at hx
            have hxk := hall x (by rw [hie, List.drop_length, enumFile, List.nil_append]; exact hx)
            have hx' : x.1 ∈ (tss.drop (f + 1)).flatten := by rw [← enumAll_fst (f + 1)]; exact List.mem_map.2 ⟨x, hx, rfl⟩
            have hflat : tss.flatten = (tss.take (f + 1)).flatten ++ (tss.drop (f + 1)).flatten := by
              rw [← List.flatten_append, List.take_append_drop]
            have hs := h.sorted
            rw [hflat, List.map_append, List.pairwise_append] at hs
            have hl' : tss[f][tss[f].length - 1]'(by omega) ∈ (tss.take (f + 1)).flatten :=
              List.mem_flatten.2 ⟨tss[f], List.mem_take_iff_getElem.2 ⟨f, by omega, rfl⟩, List.getElem_mem _⟩
            have := hs.2.2 _ (List.mem_map.2 ⟨_, hl', rfl⟩) _ (List.mem_map.2 ⟨_, hx', rfl⟩)
            exact absurd hxk (by omega)
    · refine ⟨[], [], rfl, .inr ?_, by simp, fun _ _ => rfl⟩
      rw [TermIt.gotoKey]
      dsimp only
      by_cases hk : k > (rdU m (s.endbuffer - 6) 5 : Nat)
      · rw [if_pos hk, if_neg (by omega)]
        exact ⟨rfl, rfl, h2⟩
      · rw [if_neg hk, TermIt.search, dif_neg (by omega)]
        exact ⟨rfl, h1.symm ▸ rfl, h2⟩

end
end Trident.Load
