import Verif.Load.LoaderProofs
/-!
# C42, C49, C53, C54: table files, the inserter, the merge of the entries, and the permutations
-/
namespace Trident
open Strat Load

/-! ## C42 -/

/-- C42: append any tables to a new store (files are changed when full) and map the files.  Every table is found, by the
file and mark returned when it was started, at a place that has its bytes and that ends with them. -/
theorem C42_marks_locate_tables (maxSize : Nat) (ts : List Tbl) (m : Mem) (M : Maps)
    (hM : Mapped m M (Store.addAll maxSize ts {}).1.files) (hlen : ts.length < 2 ^ 63)
    (hfit : ∀ t ∈ ts, t.key < 2 ^ 40 ∧ t.strat < 256)
    (hsize : ∀ f ∈ (Store.addAll maxSize ts {}).1.files, f.bytes.length < 2 ^ 40) :
    (Store.addAll maxSize ts {}).2.length = ts.length ∧
    ∀ x ∈ ts.zip (Store.addAll maxSize ts {}).2, ∃ a, M.getTable m x.2.1 x.2.2 = (a, a + x.1.bytes.length) ∧
      Placed m a x.1.bytes := by
  obtain ⟨tss, cur, his, -, -, henum, hl⟩ := Store.Is.addAll (maxSize := maxSize)
    (ts := ts) (s := ({} : Store)) (tss := []) (cur := []) ⟨rfl, rfl⟩ (by simp)
  refine ⟨hl, fun x hx => ?_⟩
  generalize Store.addAll maxSize ts ({} : Store) = r at *
  simp only [List.nil_append, enumAll, enumFile] at henum
  have hfiles : r.1.files = (tss ++ [cur]).map fileOf := by
    rw [Store.files, his.1, his.2]; simp
  have hflat : (tss ++ [cur]).flatten = ts := by
    have := congrArg (List.map (·.1)) henum
    rw [enumAll_fst, List.map_fst_zip (by omega)] at this
    exact this
  rw [hfiles] at hM hsize
  rw [← henum] at hx
  obtain ⟨t, f, i⟩ := x
  obtain ⟨-, us, h1, h2⟩ := mem_enumAll hx
  rw [Nat.sub_zero] at h1
  obtain ⟨hfl, h1⟩ := List.getElem?_eq_some_iff.1 h1
  obtain ⟨hil, h2⟩ := List.getElem?_eq_some_iff.1 h2
  have hmem : us ∈ tss ++ [cur] := h1 ▸ List.getElem_mem hfl
  have hMf := hM.2 f (by rw [List.length_map]; exact hfl)
  simp only [List.getElem_map, h1] at hMf
  have hF : TblFits us := by
    refine ⟨hsize _ (List.mem_map.2 ⟨us, hmem, rfl⟩), ?_, ?_⟩
    · have := (List.sublist_flatten_of_mem hmem).length_le
      rw [hflat] at this; omega
    · intro t ht
      exact hfit t (hflat ▸ List.mem_flatten.2 ⟨us, hmem, ht⟩)
  have := getTable_eq hMf.1 hMf.2.1 hMf.2.2 hF hil
  simp only [h2] at this
  exact ⟨_, this⟩

/-- C42: iterating over the marks of all files lists every table once, in the order of appending, with its key, file, mark
and layout byte. -/
theorem C42_marks_list_tables (maxSize : Nat) (ts : List Tbl) (m : Mem) (M : Maps)
    (hM : Mapped m M (Store.addAll maxSize ts {}).1.files) (hne : ts ≠ []) (hlen : ts.length < 2 ^ 63)
    (hfit : ∀ t ∈ ts, t.key < 2 ^ 40 ∧ t.strat < 256)
    (hsize : ∀ f ∈ (Store.addAll maxSize ts {}).1.files, f.bytes.length < 2 ^ 40) :
    Yields (TermIt.itr m M) (TermIt.init m M)
      ((ts.zip (Store.addAll maxSize ts {}).2).map fun x => (x.1.key, x.2.1, (x.2.2 : Int), x.1.strat)) := by
  obtain ⟨tss, cur, his, htne, hcne, henum, hl⟩ := Store.Is.addAll (maxSize := maxSize)
    (ts := ts) (s := ({} : Store)) (tss := []) (cur := []) ⟨rfl, rfl⟩ (by simp)
  generalize Store.addAll maxSize ts ({} : Store) = r at *
  simp only [List.nil_append, enumAll, enumFile] at henum
  have hfiles : r.1.files = (tss ++ [cur]).map fileOf := by
    rw [Store.files, his.1, his.2]; simp
  have hflat : (tss ++ [cur]).flatten = ts := by
    have := congrArg (List.map (·.1)) henum
    rw [enumAll_fst, List.map_fst_zip (by omega)] at this
    exact this
  rw [hfiles] at hM hsize
  have hF : ∀ us ∈ tss ++ [cur], TblFits us := by
    intro us hmem
    refine ⟨hsize _ (List.mem_map.2 ⟨us, hmem, rfl⟩), ?_, ?_⟩
    · have := (List.sublist_flatten_of_mem hmem).length_le
      rw [hflat] at this; omega
    · intro t ht
      exact hfit t (hflat ▸ List.mem_flatten.2 ⟨us, hmem, ht⟩)
  have hall : ∀ us ∈ tss ++ [cur], us ≠ [] := by
    intro us hus
    rcases List.mem_append.1 hus with h | h
    · exact htne us h
    · rw [List.mem_singleton] at h; subst h
      exact hcne (.inr hne)
  have hidx : ∀ f (h : f < (tss ++ [cur]).length),
      Placed m (M.idx f) (storeFileIndex none (fileOf (tss ++ [cur])[f]).marks) := by
    intro f h
    have := (hM.2 f (by rw [List.length_map]; exact h)).2.1
    simpa only [List.getElem_map] using this
  have hpos : 0 < (tss ++ [cur]).length := by simp
  have := termIt_all (m := m) (M := M) (tss := tss ++ [cur]) (by rw [hM.1, List.length_map]) hidx hF hall _ 0 rfl hpos 0
  rw [List.drop_zero, henum] at this
  have hinit : TermIt.init m M = ⟨0, -1, M.idx 0 + 8, M.idx 0 + 8 + (tss ++ [cur])[0].length * 11, 0⟩ := by
    unfold TermIt.init
    rw [(parse_eq (size := M.size 0) (hidx 0 hpos) (hF _ (List.getElem_mem hpos))).1]
  rw [hinit]
  exact this

/-- C42: marks stored in several parts give the same index file as marks stored at once. -/
theorem C42_marks_in_parts (a b : List Mark) (h : a.length + b.length < 2 ^ 63) :
    storeFileIndex (some (storeFileIndex none a)) b = storeFileIndex none (a ++ b) := by
  have hl : (encBE 8 a.length).length = 8 := encBE_length _ _
  have e1 : ∀ r, (encBE 8 a.length ++ r).take 8 = encBE 8 a.length := fun r => List.take_left' hl
  have e2 : ∀ r, (encBE 8 a.length ++ r).drop 8 = r := fun r => List.drop_left' hl
  simp only [storeFileIndex, encCount, e1, e2]
  rw [decBE_enc (by omega)]
  simp

/-- Three tables, a file being full after four bytes: two files. -/
example : (Store.addAll 3 [⟨7, 1, [1, 2, 3, 4]⟩, ⟨8, 1, [5]⟩, ⟨9, 2, [6, 7]⟩] {}).2 = [(0, 0), (1, 0), (1, 1)] := by decide

example : ∃ m M, Mapped m M (Store.addAll 3 [⟨7, 1, [1, 2, 3, 4]⟩, ⟨8, 1, [5]⟩, ⟨9, 2, [6, 7]⟩] {}).1.files ∧
    Yields (TermIt.itr m M) (TermIt.init m M) [(7, 0, 0, 1), (8, 1, 0, 1), (9, 1, 1, 2)] := by
  obtain ⟨m, M, h⟩ := exists_mapped fun _ => (Store.addAll 3 [⟨7, 1, [1, 2, 3, 4]⟩, ⟨8, 1, [5]⟩, ⟨9, 2, [6, 7]⟩] {}).1.files
  exact ⟨m, M 0, h 0 (by omega), C42_marks_list_tables 3 _ m (M 0) (h 0 (by omega)) (by simp) (by simp) (by simp) (by decide)⟩

/-! ## C49 -/

/-- Opening the table of the layout byte `strat` that lies at `t`, with fixed values `c1`, `c2`, returns `out`. -/
def OpensTo (m : Mem) (strat : Nat) (t : Nat × Nat) (c1 c2 : Option Int) (out : List Pair) : Prop :=
  ∃ L, decode strat = some L ∧ Yields (Tab.itr m) (openTab m t.1 t.2 L c1 c2) out

/-- C49: feed sorted rows into the inserter.  The keys of the registered tables are increasing, so there is one table per key; a key
is registered just if it occurs and is not skipped; the registered size is the number of the distinct pairs of the key; and the table
at the registered place answers every lookup with the matching pairs of the key.  (Skipped: permutations 3-5 with
`canSkip`, for less than `skipThr` pairs.) -/
theorem C49_inserter (P : Params) (rows : List (Nat × Nat × Nat)) (hskip : P.skipThr < THRESHOLD)
    (hr : rows.Pairwise rowLe) (hfix : FixedOk P.fixed)
    (hv : ∀ r ∈ rows, r.1 < 2 ^ 39 ∧ r.2.1 < 2 ^ 39 ∧ r.2.2 < 2 ^ 39) (hn : rows.length < 2 ^ 32)
    (m : Mem) (M : Maps) (hM : Mapped m M (loadPerm P rows).store.files)
    (hsize : ∀ f ∈ (loadPerm P rows).store.files, f.bytes.length < 2 ^ 40) :
    ((loadPerm P rows).tree.map (·.key)).Pairwise (· < ·) ∧
    (∀ k, k ∈ (loadPerm P rows).tree.map (·.key) ↔
      ∃ ps, KeyPairs rows k ps ∧ ¬ (P.perm ≥ 3 ∧ P.canSkip = true ∧ ps.length < P.skipThr)) ∧
    ∀ e ∈ (loadPerm P rows).tree, ∃ ps, KeyPairs rows e.key ps ∧ e.n = ps.length ∧
      ∀ c1 c2, OpensTo m e.strat (M.getTable m e.file e.pos) c1 c2 (matching (toI ps) c1 c2) := by
  obtain ⟨h1, h2, h3, -, h5⟩ := loadPerm_ok hskip hr hfix hv hn
  refine ⟨h1, fun k => ?_, fun e he => ?_⟩
  · constructor
    · intro hk
      obtain ⟨e, he, rfl⟩ := List.mem_map.1 hk
      obtain ⟨ps, a, b, -, -⟩ := h2 e he
      exact ⟨ps, a, b⟩
    · rintro ⟨ps, a, b⟩
      obtain ⟨p, hp⟩ := List.exists_mem_of_ne_nil _ a.1
      obtain ⟨qs, c, d⟩ := h3 _ ((a.2.2 p).1 hp)
      have : qs = ps := c.unique a
      subst this
      obtain ⟨e, he, hk⟩ := d b
      exact List.mem_map.2 ⟨e, he, hk⟩
  · obtain ⟨ps, a, -, c, d⟩ := h2 e he
    refine ⟨ps, a, c, fun c1 c2 => ?_⟩
    have hp := (h5 m M hM hsize).1 e he ps a
    have hl := a.length_le
    obtain ⟨L, e1, -, -, e4⟩ := Params.strat_ok (P := P) hfix a.2.1 (fun p hp => (hv _ ((a.2.2 p).1 hp)).2) (by omega)
    rw [← d] at e1
    refine ⟨L, e1, ?_⟩
    have hp1 := hp.1
    have hp2 := hp.2
    simp only [tableBytes, e1] at hp1 hp2
    rw [hp1]
    exact C08_any_layout_partial L P.thr ps m _ e4 a.2.1 a.1 hp2 c1 c2

/-- A permutation with a skipped key and a duplicate row. -/
def exRows : List (Nat × Nat × Nat) := [(1, 2, 3), (1, 2, 3), (1, 2, 4), (5, 1, 1), (6, 1, 1), (6, 2, 2)]

def exParams : Params := ⟨4, true, 2, none, 10, false, 9, 100⟩

example : (loadPerm exParams exRows).tree.map (fun e => (e.key, e.n)) = [(1, 2), (6, 2)] := by decide +kernel

example : ∃ m M, Mapped m M (loadPerm exParams exRows).store.files ∧
    ∃ e ∈ (loadPerm exParams exRows).tree, e.key = 1 ∧
      OpensTo m e.strat (M.getTable m e.file e.pos) none none [(2, 3), (2, 4)] := by
  obtain ⟨m, M, h⟩ := exists_mapped fun _ => (loadPerm exParams exRows).store.files
  refine ⟨m, M 0, h 0 (by omega), ?_⟩
  obtain ⟨-, h2, h3⟩ := C49_inserter exParams exRows (by decide) (by simp [exRows, rowLe]) (.inl rfl) (by decide)
    (by decide) m (M 0) (h 0 (by omega)) (by decide +kernel)
  have hk : KeyPairs exRows 1 [(2, 3), (2, 4)] := by
    refine ⟨by simp, by decide, fun p => ?_⟩
    obtain ⟨a, b⟩ := p
    simp [exRows]
  have : 1 ∈ (loadPerm exParams exRows).tree.map (·.key) := by decide +kernel
  obtain ⟨e, he, e1⟩ := List.mem_map.1 this
  obtain ⟨ps, a, -, c⟩ := h3 e he
  refine ⟨e, he, e1, ?_⟩
  rw [e1] at a
  have := a.unique hk
  subst this
  exact c none none

/-! ## C53 -/

/-- C53: the entries written for the permutations, with keys increasing in each and the tables of permutations 3-5 only for
keys of their partners 0-2, are merged to one entry per key, in increasing order: a key has an entry just if it has a table
in some permutation, and the entry has, for every permutation, exactly the record of the key. -/
theorem C53_merge_entries (s : Nat → List TreeEl) (hs : ∀ i, ((s i).map (·.key)).Pairwise (· < ·))
    (hfit : ∀ i, ∀ e ∈ s i, e.key < 2 ^ 63 ∧ e.n < 2 ^ 63 ∧ e.file < 2 ^ 15 ∧ e.pos < 2 ^ 31 ∧ e.strat < 256)
    (hsub : ∀ i, i < 3 → ∀ e ∈ s (i + 3), ∃ x ∈ s i, x.key = e.key) (hrest : ∀ i, 6 ≤ i → s i = []) :
    let out := mergeCoordinates fun i => readTree ((s i).flatMap TreeEl.enc)
    (out.map (·.1)).Pairwise (· < ·) ∧ (∀ k, k ∈ out.map (·.1) ↔ ∃ i, k ∈ (s i).map (·.key)) ∧
    ∀ x ∈ out, ∀ i e, x.2 i = some e ↔ e ∈ s i ∧ e.key = x.1 := by
  intro out
  have e : out = mergeCoordinates s := by
    show mergeCoordinates _ = _
    congr 1
    funext i
    exact readTree_enc (hfit i)
  have h : MOk s := ⟨hs, hsub, hrest⟩
  obtain ⟨a, b, c⟩ := mergerLoop_spec h (Nat.le_refl _)
  rw [e]
  refine ⟨a, fun k => ?_, fun x hx i e => ?_⟩
  · refine (b k).trans ⟨?_, ?_⟩
    · rintro ⟨i, e, he, hk⟩; exact ⟨i, List.mem_map.2 ⟨e, he, hk⟩⟩
    · rintro ⟨i, hk⟩
      obtain ⟨e, he, hk⟩ := List.mem_map.1 hk
      exact ⟨i, e, he, hk⟩
  · rw [c x hx i]
    exact rec_some (hs i)

/-- C53 without the condition on the partners is false: an entry of PSO whose key is not in POS blocks all later
entries of PSO. -/
theorem C53_partner_needed :
    let s : Nat → List TreeEl := fun i => match i with
      | 0 => [⟨1, 1, 0, 0, 0⟩]
      | 2 => [⟨5, 1, 0, 0, 0⟩]
      | 5 => [⟨3, 1, 0, 0, 0⟩, ⟨5, 1, 0, 1, 0⟩]
      | _ => []
    (mergeCoordinates s).map (fun x => (x.1, (x.2 5).isSome)) = [(1, false), (5, false)] := by
  decide +kernel

example : (mergeCoordinates fun i => match i with
      | 0 => [⟨1, 1, 0, 0, 0⟩, ⟨4, 1, 0, 1, 0⟩]
      | 1 => [⟨2, 1, 0, 0, 0⟩, ⟨4, 1, 0, 1, 0⟩]
      | 4 => [⟨4, 1, 0, 0, 0⟩]
      | _ => []).map (fun x => (x.1, [0, 1, 2, 3, 4, 5].map fun i => (x.2 i).isSome)) =
    [(1, [true, false, false, false, false, false]), (2, [false, true, false, false, false, false]),
     (4, [true, true, false, false, true, false])] := by decide +kernel

/-! ## C54 -/

/-- Where the variables say subject, predicate and object are in a row of permutation `i`. -/
def Load.PosVars.For (v : PosVars) (i : Nat) : Prop :=
  ∀ t : T3, (permRow i t).nth v.s = t.1 ∧ (permRow i t).nth v.p = t.2.1 ∧ (permRow i t).nth v.o = t.2.2

theorem Load.regenStep_eq {i j : Nat} {v : PosVars} (hv : v.For i) (hj : 1 ≤ j ∧ j ≤ 5) (g : List T3) :
    (regenStep j v (g.map (permRow i))).1 = g.map (permRow j) ∧
      (j ≠ 5 → (regenStep j v (g.map (permRow i))).2.For j) := by
  have hj' : j = 1 ∨ j = 2 ∨ j = 3 ∨ j = 4 ∨ j = 5 := by omega
  rcases hj' with rfl | rfl | rfl | rfl | rfl <;>
    refine ⟨?_, fun h => ?_⟩ <;>
    first
      | (simp only [regenStep, List.map_map]
         congr 1
         funext t
         obtain ⟨a, b, c⟩ := hv t
         rw [Function.comp_apply, regenRow, a, b, c]
         rfl)
      | (intro t; exact ⟨rfl, rfl, rfl⟩)
      | exact absurd rfl h

/-- C54: when each permutation is made from the rows of the one before (from SPO for the first), and PSO at most at the
end as in the loader, every permutation has the rows of the input in its order. -/
theorem C54_chained_permutations (g : List T3) (is : List Nat) (his : ∀ i ∈ is, 1 ≤ i ∧ i ≤ 5) (h5 : 5 ∉ is.dropLast) :
    regenAll is ⟨0, 1, 2⟩ (g.map (permRow 0)) = is.map fun i => (i, g.map (permRow i)) := by
  have key : ∀ (is : List Nat) (i : Nat) (v : PosVars), v.For i → (∀ i ∈ is, 1 ≤ i ∧ i ≤ 5) → 5 ∉ is.dropLast →
      regenAll is v (g.map (permRow i)) = is.map fun i => (i, g.map (permRow i)) := by
    intro is
    induction is with
    | nil => intros; rfl
    | cons j is ih =>
      intro i v hv his h5
      obtain ⟨e1, e2⟩ := regenStep_eq hv (his j (by simp)) g
      rw [regenAll, List.map_cons, e1]
      congr 1
      cases is with
      | nil => rfl
      | cons x is =>
        rw [List.dropLast_cons₂, List.mem_cons, not_or] at h5
        exact ih j _ (e2 fun h => h5.1 h.symm) (fun i hi => his i (by simp [hi])) h5.2
  exact key is 0 ⟨0, 1, 2⟩ (fun t => ⟨rfl, rfl, rfl⟩) his h5

/-- C54: the rows of a permutation list the triple in the order named by it. -/
theorem C54_rows (d : Order) (t : T3) :
    (((permRow d.idx t).1 : Int), ((permRow d.idx t).2.1 : Int), ((permRow d.idx t).2.2 : Int)) = d.row t.triple := by
  cases d <;> rfl

/-- The six indices, in the order of the loader. -/
example (g : List T3) : regenAll [3, 1, 4, 2, 5] ⟨0, 1, 2⟩ (g.map (permRow 0)) =
    [3, 1, 4, 2, 5].map fun i => (i, g.map (permRow i)) :=
  C54_chained_permutations g _ (by decide) (by decide)

end Trident
