import Verif.Flat.LoadProofs
import Verif.Load.LoaderProofs
/-! Helper proofs for the flat tree: the files of the loader (no property statements here). -/
namespace Trident.Flat
open Load Strat

theorem readMarks_enc {ms : List Mark} (h : ∀ k ∈ ms, k.Fits) : readMarks ms.length (ms.flatMap Mark.enc) = ms := by
  induction ms with
  | nil => rfl
  | cons k ms ih =>
    obtain ⟨f1, f2, f3⟩ := h k (by simp)
    rw [List.length_cons, readMarks, List.flatMap_cons]
    have e0 : k.enc = encBE 5 k.pos ++ (encBE 5 k.key ++ [UInt8.ofNat k.strat]) := by rw [Mark.enc, List.append_assoc]
    have d : (k.enc ++ ms.flatMap Mark.enc).drop 11 = ms.flatMap Mark.enc := List.drop_left' (Mark.enc_length k)
    have t5 : (k.enc ++ ms.flatMap Mark.enc).take 5 = encBE 5 k.pos := by
      rw [e0, List.append_assoc, List.take_left' (encBE_length _ _)]
    have d5 : ((k.enc ++ ms.flatMap Mark.enc).drop 5).take 5 = encBE 5 k.key := by
      rw [e0, List.append_assoc, List.drop_left' (encBE_length _ _), List.append_assoc, List.take_left' (encBE_length _ _)]
    have g10 : (k.enc ++ ms.flatMap Mark.enc).getD 10 0 = UInt8.ofNat k.strat := by
      rw [List.getD_eq_getElem?_getD, List.getElem?_append_left (by rw [Mark.enc_length]; omega), Mark.enc,
        List.getElem?_append_right (by simp [encBE_length])]
      simp [encBE_length]
    rw [d, t5, d5, g10, ih fun x hx => h x (by simp [hx]), decBE_enc', decBE_enc', u8_ofNat, Nat.mod_eq_of_lt f3,
      Nat.mod_eq_of_lt (by omega), Nat.mod_eq_of_lt (by omega)]

theorem readIdx_store {ms : List Mark} (h : ∀ k ∈ ms, k.Fits) (hn : ms.length < 2 ^ 64) : readIdx (storeFileIndex none ms) = ms := by
  unfold readIdx storeFileIndex encCount
  simp only
  rw [List.take_left' (encBE_length _ _), List.drop_left' (encBE_length _ _), decBE_enc', Nat.mod_eq_of_lt (by omega), readMarks_enc h]

/-- The marks of files: bytes and number of the file, number of the mark and the mark. -/
def marksOf (fs : List DataFile) : List (List UInt8 × Nat × Nat × Mark) :=
  fs.zipIdx.flatMap fun x => x.1.marks.zipIdx.map fun y => (x.1.bytes, x.2, y.2, y.1)

theorem zipIdx_map_left {α β : Type} (f : α → β) (l : List α) (n : Nat) : (l.map f).zipIdx n = (l.zipIdx n).map fun x => (f x.1, x.2) := by
  induction l generalizing n with
  | nil => rfl
  | cons a l ih => simp [List.zipIdx_cons, ih]

theorem entries_dirOf {K : Kind} {fs : List DataFile} (h : ∀ f ∈ fs, (∀ k ∈ f.marks, k.Fits) ∧ f.marks.length < 2 ^ 63) (hn : fs.length ≤ 16384) :
    entries K (dirOf fs) = (marksOf fs).mapM fun q => entryOf K q.1 q.2.1 q.2.2.1 q.2.2.2 := by
  unfold entries
  rw [if_neg (by simp [dirOf]; omega)]
  congr 1
  unfold dirOf marksOf
  rw [zipIdx_map_left, List.flatMap_map]
  refine flatMap_ext fun x hx => ?_
  have hx' : x.1 ∈ fs := by
    obtain ⟨x1, x2⟩ := x
    exact List.fst_mem_of_mem_zipIdx hx
  simp only
  rw [readIdx_store (h _ hx').1 (by have := (h _ hx').2; omega)]

theorem enumFile_marks (f i off : Nat) (ts : List Tbl) (bytes : List UInt8) :
    ((marksFrom off ts).zipIdx i).map (fun y => (y.1.key, y.1.strat, f, y.2)) = (enumFile f i ts).map fun z => (z.1.key, z.1.strat, z.2.1, z.2.2) := by
  induction ts generalizing off i with
  | nil => rfl
  | cons t ts ih =>
    simp only [marksFrom, enumFile, List.zipIdx_cons, List.map_cons]
    rw [ih]

theorem enumAll_marks (n : Nat) (tss : List (List Tbl)) :
    ((tss.map fileOf).zipIdx n).flatMap (fun x => x.1.marks.zipIdx.map fun y => (y.1.key, y.1.strat, x.2, y.2)) =
      (enumAll n tss).map fun z => (z.1.key, z.1.strat, z.2.1, z.2.2) := by
  induction tss generalizing n with
  | nil => rfl
  | cons ts tss ih =>
    rw [List.map_cons, List.zipIdx_cons, List.flatMap_cons, ih, enumAll, List.map_append]
    congr 1
    exact enumFile_marks n 0 0 ts []

theorem loadPerm_marks {P : Params} {rows : List (Nat × Nat × Nat)} (hskip : P.skipThr < THRESHOLD)
    (hr : rows.Pairwise rowLe) (hfix : FixedOk P.fixed)
    (hv : ∀ r ∈ rows, r.1 < 2 ^ 39 ∧ r.2.1 < 2 ^ 39 ∧ r.2.2 < 2 ^ 39) (hn : rows.length < 2 ^ 32)
    (hby : ∀ f ∈ (loadPerm P rows).store.files, f.bytes.length < 2 ^ 40) :
    (∀ f ∈ (loadPerm P rows).store.files, (∀ k ∈ f.marks, k.Fits) ∧ f.marks.length < 2 ^ 63) ∧
    (marksOf (loadPerm P rows).store.files).map (fun q => (q.2.2.2.key, q.2.2.2.strat, q.2.1, q.2.2.1)) =
      (loadPerm P rows).tree.map fun e => (e.key, e.strat, e.file, e.pos) := by
  have hq := squeeze_spec (prev := none) hr (by simp)
  have hg := groupRows_sorted hq.1
  have hload := loadPerm_eq hskip hr
  have hro := rowsOf_groupRows (squeeze none rows)
  have hne := groupRows_ne (squeeze none rows)
  have hlg : (groupRows (squeeze none rows)).length ≤ rows.length :=
    Nat.le_trans (groupRows_length_le _) (squeeze_length_le _ _)
  have hlr : (rowsOf (groupRows (squeeze none rows))).length ≤ rows.length := by
    rw [hro]; exact squeeze_length_le _ _
  have hmem : ∀ r, r ∈ rowsOf (groupRows (squeeze none rows)) ↔ r ∈ rows := by
    intro r; rw [hro, hq.2.2]; simp
  generalize groupRows (squeeze none rows) = gs at *
  have hkp : ∀ g ∈ gs, KeyPairs rows g.1 g.2 := fun g hg' =>
    ⟨hne g hg', hg.2 g hg', fun p => by rw [← hmem, mem_rowsOf_iff hg.1 hg']⟩
  have hf := foldl_addKey (P := P) gs (x := ({}, []))
  obtain ⟨hs1, hs2⟩ := hf
  have hl1 := congrArg Prod.fst hload
  have hl2 := congrArg Prod.snd hload
  simp only at hl1 hl2
  rw [hl1, hs1] at hby
  rw [hl1, hl2, hs1, hs2]
  clear hl1 hl2 hs1 hs2 hload
  have hkept : ∀ g ∈ gs.filter fun g => ¬ P.skips g.2, g ∈ gs ∧ ¬ P.skips g.2 := by
    intro g hg'
    rw [List.mem_filter] at hg'
    exact ⟨hg'.1, by simpa using hg'.2⟩
  have hklen : (gs.filter fun g => ¬ P.skips g.2).length ≤ rows.length := Nat.le_trans (List.length_filter_le _ _) hlg
  generalize (gs.filter fun g => ¬ P.skips g.2) = kept at *
  obtain ⟨tss, cur, his, htne, hcne, henum, hlen⟩ := Store.Is.addAll (maxSize := P.maxSize)
    (ts := kept.map fun g => P.tbl g.1 g.2) (s := ({} : Store)) (tss := []) (cur := []) ⟨rfl, rfl⟩ (by simp)
  generalize Store.addAll P.maxSize (kept.map fun g => P.tbl g.1 g.2) ({} : Store) = r at *
  simp only [List.nil_append, enumAll, enumFile] at henum
  simp only [List.length_map] at hlen
  simp only [List.nil_append]
  have hflat : (tss ++ [cur]).flatten = kept.map fun g => P.tbl g.1 g.2 := by
    have := congrArg (List.map (·.1)) henum
    rw [enumAll_fst, List.map_fst_zip (by simp; omega)] at this
    exact this
  have hfiles : r.1.files = (tss ++ [cur]).map fileOf := by
    rw [Store.files, his.1, his.2]; simp
  rw [hfiles] at hby ⊢
  have hfit : ∀ ts ∈ tss ++ [cur], TblFits ts := by
    intro ts hts
    refine ⟨hby _ (List.mem_map.2 ⟨ts, hts, rfl⟩), ?_, ?_⟩
    · have h1 : ts.length ≤ (tss ++ [cur]).flatten.length := (List.sublist_flatten_of_mem hts).length_le
      rw [hflat, List.length_map] at h1
      omega
    · intro t ht
      have h1 : t ∈ (tss ++ [cur]).flatten := List.mem_flatten.2 ⟨ts, hts, ht⟩
      rw [hflat] at h1
      obtain ⟨g, hg', rfl⟩ := List.mem_map.1 h1
      have hgs := (hkept g hg').1
      have hk := hkp g hgs
      have hvg : ∀ p ∈ g.2, p.1 < 2 ^ 39 ∧ p.2 < 2 ^ 39 := fun p hp => (hv _ ((hk.2.2 p).1 hp)).2
      obtain ⟨p, hp⟩ := List.exists_mem_of_ne_nil _ hk.1
      have hkey := (hv _ ((hk.2.2 p).1 hp)).1
      have hle := group_length_le hgs
      obtain ⟨L, -, -, h3, -⟩ := Params.strat_ok hfix hk.2.1 hvg (by omega)
      exact ⟨by show g.1 < _; omega, h3⟩
  constructor
  · intro f hf
    obtain ⟨ts, hts, rfl⟩ := List.mem_map.1 hf
    have hl : (fileOf ts).marks.length = ts.length := by rw [fileOf, marksFrom_length]
    refine ⟨?_, by rw [hl]; exact (hfit ts hts).2.1⟩
    intro k hk
    obtain ⟨i, hi, rfl⟩ := List.getElem_of_mem hk
    exact (hfit ts hts).mark (by omega)
  · unfold marksOf
    rw [List.map_flatMap]
    have := enumAll_marks 0 (tss ++ [cur])
    rw [henum, List.zip_map_left, List.map_map] at this
    rw [List.map_map]
    simp only [List.map_map]
    exact this

/-- The entries of a permutation of a labelled graph are what the tree has. -/
def entryTree (e : TreeEl) : Entry := ⟨e.key, e.strat, e.file, e.pos⟩

theorem mapM_some {α β : Type} (f : α → β) (l : List α) : (l.mapM fun x => (some (f x) : Option β)) = some (l.map f) :=
  mapM_all fun _ _ => rfl

theorem entries_labeled {fs : List DataFile} {tree : List TreeEl} (h : ∀ f ∈ fs, (∀ k ∈ f.marks, k.Fits) ∧ f.marks.length < 2 ^ 63) (hn : fs.length ≤ 16384)
    (ht : (marksOf fs).map (fun q => (q.2.2.2.key, q.2.2.2.strat, q.2.1, q.2.2.1)) = tree.map fun e => (e.key, e.strat, e.file, e.pos)) :
    entries .labeled (dirOf fs) = some (tree.map entryTree) := by
  rw [entries_dirOf h hn]
  simp only [entryOf, if_true]
  rw [mapM_some]
  have := congrArg (List.map fun q : Nat × Nat × Nat × Nat => (⟨q.1, q.2.1, q.2.2.1, q.2.2.2⟩ : Entry)) ht
  rw [List.map_map, List.map_map] at this
  exact congrArg some this

section
variable {c : Config} {g : List T3}

theorem entries_dirsOf (h : c.Ok g) (i : Nat) (hn : (c.ins g i).store.files.length ≤ 16384) :
    entries .labeled (dirsOf c g i) = some ((c.ins g i).tree.map entryTree) := by
  unfold dirsOf
  by_cases ht : (c.ins g i).tree = []
  · rw [if_pos ht, ht]
    rfl
  · rw [if_neg ht]
    have hi : permsOf c.nindices i = true := by
      apply Classical.byContradiction
      intro hi
      exact ht (by rw [ins_neg hi])
    have hfs := h.fsize i
    rw [ins_pos hi] at hfs hn ⊢
    have := loadPerm_marks (P := c.params i) (rows := c.rows g i) h.skip (h.sort _).1 h.fixed h.rows_lt
      (by have := h.rows_len (i := i); omega) hfs
    exact entries_labeled this.1 hn this.2

theorem isSome_rec {l : List TreeEl} {k : Nat} : (rec? k l).isSome = true ↔ k ∈ l.map (·.key) := by
  unfold rec?
  rw [List.find?_isSome, List.mem_map]
  simp

theorem entOf_rec (l : List TreeEl) (k : Nat) : ∀ e, rec? k l = some e → entOf (l.map entryTree) k = entryTree e := by
  intro e he
  unfold entOf
  rw [List.find?_map]
  unfold rec? at he
  have : l.find? ((fun e : Entry => decide (e.key = k)) ∘ entryTree) = some e := he
  rw [this]
  rfl

theorem input (h : c.Ok g) (h3 : (c.ins g 3).tree ≠ []) (hn : ∀ i, (c.ins g i).store.files.length ≤ 16384)
    {junk : Nat → Nat → List UInt8} (hj : ∀ k p, (junk k p).length = 8) :
    Input .labeled junk (dirsOf c g) (c.tree g) fun i => (c.ins g i).tree.map entryTree := by
  obtain ⟨t1, t2, t3⟩ := h.tree_spec
  have hkeys : ∀ i, ((c.ins g i).tree.map entryTree).map (·.key) = (c.ins g i).tree.map (·.key) := by
    intro i
    rw [List.map_map]
    rfl
  have hperm : ∀ i, permsOf c.nindices i = true → i ∈ Kind.labeled.perms := by
    intro i hi
    have := permsOf_lt hi
    simp only [Kind.perms, List.mem_cons, List.not_mem_nil, or_false]
    omega
  have hpos : ∀ i, ∀ e ∈ (c.ins g i).tree, 0 < e.n ∧ e.n < 2 ^ 31 := by
    intro i e he
    by_cases hi : permsOf c.nindices i = true
    · rw [ins_pos hi] at he
      obtain ⟨-, h2, -, -, -⟩ := h.load i
      obtain ⟨ps, hk, -, hn, -⟩ := h2 e he
      have hl := h.rows_len (i := i)
      have hk' := hk.length_le
      have hne : 0 < ps.length := List.length_pos_iff.2 hk.1
      omega
    · rw [ins_neg hi] at he
      simp at he
  have hmemi : ∀ i, ∀ e ∈ (c.ins g i).tree, permsOf c.nindices i = true := by
    intro i e he
    apply Classical.byContradiction
    intro hi
    rw [ins_neg hi] at he
    simp at he
  refine ⟨hj, fun p _ => entries_dirsOf h p (hn p), ?_, t1, ?_, ?_, ?_, ?_, fun hk => absurd rfl hk, ?_, ?_⟩
  · unfold dirsOf
    rw [if_neg h3]
    unfold dirOf Store.files
    simp
  · intro p _
    rw [hkeys]
    exact h.mok.sorted p
  · intro p _ e he
    obtain ⟨t, ht, rfl⟩ := List.mem_map.1 he
    exact (t2 t.key).2 ⟨p, t, ht, rfl⟩
  · intro p _ x hx
    rw [t3 x hx p, isSome_rec, hkeys]
  · intro x hx
    obtain ⟨i, e, he, hek⟩ := (t2 x.1).1 (List.mem_map.2 ⟨x, hx, rfl⟩)
    refine ⟨i, hperm i (hmemi i e he), ?_⟩
    rw [t3 x hx i, isSome_rec]
    exact List.mem_map.2 ⟨e, he, hek⟩
  · intro x hx p _ t ht
    rw [t3 x hx p] at ht
    have := hpos p t (List.mem_of_find?_eq_some ht)
    omega
  · intro p _ e he
    obtain ⟨t, ht, rfl⟩ := List.mem_map.1 he
    have := h.fits p t ht
    unfold TreeEl.Fits at this
    simp only [entryTree]
    omega

/-- What is expected is what the tree has. -/
theorem expected_tree (h : c.Ok g) (k p : Nat) :
    expected (c.tree g) (fun i => (c.ins g i).tree.map entryTree) k p = (rec? k (c.ins g p).tree).map fun t => ⟨t.n, t.strat, t.file, t.pos⟩ := by
  obtain ⟨t1, t2, t3⟩ := h.tree_spec
  unfold expected
  cases hl : (c.tree g).lookup k with
  | none =>
    have : rec? k (c.ins g p).tree = none := by
      cases hr : rec? k (c.ins g p).tree with
      | none => rfl
      | some e =>
        have hm := (rec_some (h.mok.sorted p)).1 hr
        obtain ⟨x, hx, hxk⟩ := List.mem_map.1 ((t2 k).2 ⟨p, e, hm⟩)
        have := lookup_mem t1 hx
        rw [hxk, hl] at this
        simp at this
    rw [this]
    rfl
  | some cs =>
    have := t3 (k, cs) (mem_of_lookup hl) p
    simp only at this
    rw [Option.bind_some, this]
    cases hr : rec? k (c.ins g p).tree with
    | none => rfl
    | some e =>
      simp only [Option.map_some]
      rw [entOf_rec _ _ e hr]
      rfl

end

/-- The padding after the end of the file has no table. -/
theorem readSlot_after {out : List UInt8} {a : Nat} (h : out.length ≤ a) {x : Option Coo} (hx : readSlot (pages out) a = some x) : x = none := by
  unfold readSlot rd at hx
  by_cases hb : a + 8 ≤ (pages out).length
  · rw [if_pos hb, Option.bind_some] at hx
    have hz : ((pages out).drop a).take 8 = List.replicate 8 0 := by
      unfold pages
      have hb' := hb
      simp only [pages, List.length_append, List.length_replicate] at hb'
      rw [List.drop_append, List.drop_of_length_le h, List.nil_append, List.drop_replicate, List.take_replicate]
      congr 1
      omega
    rw [hz] at hx
    simp only at hx
    rw [if_neg (by decide)] at hx
    exact (Option.some.inj hx).symm
  · rw [if_neg hb] at hx
    simp at hx

theorem mapM_mem {α β : Type} {f : α → Option β} : ∀ {l : List α} {r : List β}, l.mapM f = some r → ∀ y ∈ r, ∃ x ∈ l, f x = some y
  | [], r, h, y, hy => by
    rw [List.mapM_nil] at h
    cases h
    simp at hy
  | a :: l, r, h, y, hy => by
    rw [List.mapM_cons] at h
    cases ha : f a with
    | none => rw [ha] at h; simp at h
    | some b =>
      cases hl : l.mapM f with
      | none => rw [ha, hl] at h; simp at h
      | some q =>
        rw [ha, hl] at h
        simp at h
        subst h
        rcases List.mem_cons.1 hy with rfl | hy
        · exact ⟨a, by simp, ha⟩
        · obtain ⟨x, hx, hf⟩ := mapM_mem hl y hy
          exact ⟨x, by simp [hx], hf⟩

theorem lookup_mem' {α : Type} {l : List (Nat × α)} {k : Nat} {v : α} (h : l.lookup k = some v) : (k, v) ∈ l := by
  induction l with
  | nil => simp at h
  | cons y l ih =>
    obtain ⟨a, b⟩ := y
    rw [List.lookup_cons] at h
    by_cases hk : k = a
    · subst hk
      simp at h
      simp [h]
    · have : (k == a) = false := by simpa using hk
      simp only [this] at h
      simp [ih h]

theorem get_after {K : Kind} {out : List UInt8} {k : Nat} (h : out.length ≤ k * K.size) {f : Nat → Option Coo} (hf : get K out k = some f) (p : Nat) : f p = none := by
  unfold get at hf
  rw [Option.map_eq_some_iff] at hf
  obtain ⟨l, hl, rfl⟩ := hf
  simp only
  cases hp : l.lookup p with
  | none => rfl
  | some v =>
    have hm := lookup_mem' hp
    obtain ⟨x, -, hx⟩ := mapM_mem hl _ hm
    rw [Option.map_eq_some_iff] at hx
    obtain ⟨w, hw, he⟩ := hx
    have := readSlot_after (by omega) hw
    simp only [Prod.mk.injEq] at he
    rw [← he.2, this]
    rfl

theorem mapM_none {α β : Type} {f : α → Option β} : ∀ {l : List α} {x : α}, x ∈ l → f x = none → l.mapM f = none
  | [], x, h, _ => by simp at h
  | a :: l, x, h, hx => by
    rw [List.mapM_cons]
    cases ha : f a with
    | none => rfl
    | some b =>
      rcases List.mem_cons.1 h with rfl | h
      · rw [hx] at ha; simp at ha
      · rw [mapM_none h hx]
        rfl

/-- Far behind the end. -/
theorem get_far {K : Kind} {out : List UInt8} {k : Nat} (h : (pages out).length ≤ k * K.size) : get K out k = none := by
  have hs : readSlot (pages out) (k * K.size + (5 + 13 * 0)) = none := by
    unfold readSlot rd
    rw [if_neg (by omega)]
    rfl
  unfold get readBlock
  rw [mapM_none (x := (3, 0)) (by cases K <;> decide) (by simp only; rw [hs]; rfl)]
  rfl

/-- The last block if its last permutation has a table and the file ends with its page. -/
theorem get_last {S : Nat → Nat → List UInt8} (hS : ∀ k q, (S k q).length = 13) {n : Nat} (hr : room ((n + 1) * 83) < 3) (hc : cooOf (S n 5) ≠ none) :
    get .labeled (seg (blk .labeled S) 0 (n + 1)) n = none := by
  have hlen : (seg (blk .labeled S) 0 (n + 1)).length = (n + 1) * 83 := by
    rw [seg_length (n := 83) fun j _ _ => blk_length fun q _ => hS j q, Nat.sub_zero]
  have hs : readSlot (pages (seg (blk .labeled S) 0 (n + 1))) (n * Kind.labeled.size + (5 + 13 * 5)) = none := by
    obtain ⟨L, R, e, hL, hR⟩ : ∃ L R, pages (seg (blk .labeled S) 0 (n + 1)) = L ++ (S n 5 ++ R) ∧ L.length = n * 83 + 70 ∧ R.length < 3 := by
      refine ⟨seg (blk .labeled S) 0 n ++ (encLE 5 n ++ [3, 4, 0, 1, 2].flatMap (S n)), List.replicate (room ((n + 1) * 83)) 0, ?_, ?_, by simpa using hr⟩
      · unfold pages
        rw [hlen, ← seg_append (blk .labeled S) (Nat.zero_le n) (Nat.le_succ n), seg_one]
        simp [blk, Kind.perms, room]
      · rw [List.length_append, seg_length (n := 83) (fun j _ _ => blk_length fun q _ => hS j q)]
        simp [encLE_length, hS]
    have hsz : n * Kind.labeled.size + (5 + 13 * 5) = L.length := by rw [hL]; rfl
    rw [hsz, e]
    have hb := hS n 5
    have hpos : 0 < decLE ((S n 5).take 5) := by
      unfold cooOf at hc
      by_cases hp : 0 < decLE ((S n 5).take 5)
      · exact hp
      · rw [if_neg hp] at hc; exact absurd rfl hc
    have h8 : rd (L ++ (S n 5 ++ R)) L.length 8 = some ((S n 5).take 8) := by
      unfold rd
      rw [if_pos (by simp [hb]; omega), List.drop_left, List.take_append_of_le_length (by omega)]
    have hf : rd (L ++ (S n 5 ++ R)) (L.length + 8) 8 = none := by
      unfold rd
      rw [if_neg (by simp [hb]; omega)]
    unfold readSlot
    rw [h8, Option.bind_some]
    simp only [List.take_take]
    rw [show min 5 8 = 5 from rfl, if_pos hpos, hf]
    cases rd (L ++ (S n 5 ++ R)) (L.length + 6) 2 <;> rfl
  unfold get readBlock
  rw [mapM_none (x := (5, 5)) (by decide) (by simp only; rw [hs]; rfl)]
  rfl

end Trident.Flat
