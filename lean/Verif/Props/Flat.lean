import Verif.Flat.LoaderProofs
import Verif.Props.Query
/-!
# C50: the flat tree
-/
namespace Trident
open Strat Load Flat

/-- The ids in a graph. -/
def idsOf (g : List T3) : List Nat := g.flatMap fun t => [t.1, t.2.1, t.2.2]

/-- `n` is the largest id of the graph. -/
def Largest (g : List T3) (n : Nat) : Prop := n ∈ idsOf g ∧ ∀ k ∈ idsOf g, k ≤ n

/-- What the ordinary tree has for a term and a permutation: number of pairs, strategy, file, number of the table. -/
def treeHas (c : Config) (g : List T3) (k p : Nat) : Option Coo :=
  ((c.tree g).lookup k).bind fun cs => (cs p).map fun t => ⟨t.n, t.strat, t.file, t.pos⟩

/-- Some table of the permutation SOP is written: tables are not skipped, or a subject has as many triples as the threshold. -/
def WritesSop (c : Config) (g : List T3) : Prop :=
  c.canSkip = false ∨ ∃ (s : Nat) (ps : List (Nat × Nat)), ps.Nodup ∧ c.skipThr ≤ ps.length ∧ ps ≠ [] ∧ ∀ p ∈ ps, (s, p.1, p.2) ∈ g

/-- A file of `n + 1` blocks ends at least three bytes before its last page does. -/
def RoomAfter (n : Nat) : Prop := 83 * (n + 1) % 4096 ≠ 0 ∧ 83 * (n + 1) % 4096 < 4094

instance (n : Nat) : Decidable (RoomAfter n) := by unfold RoomAfter; infer_instance

section
variable {c : Config} {g : List T3}

theorem mem_idsOf {k : Nat} : k ∈ idsOf g ↔ ∃ t ∈ g, k = t.1 ∨ k = t.2.1 ∨ k = t.2.2 := by
  unfold idsOf
  rw [List.mem_flatMap]
  constructor
  · rintro ⟨t, ht, hk⟩
    exact ⟨t, ht, by simpa using hk⟩
  · rintro ⟨t, ht, hk⟩
    exact ⟨t, ht, by simpa using hk⟩

theorem mem_tree_keys (h : c.Ok g) (hi : c.nindices = 6) (k : Nat) : k ∈ (c.tree g).map (·.1) ↔ k ∈ idsOf g := by
  obtain ⟨-, t2, -⟩ := h.tree_spec
  rw [t2, mem_idsOf]
  constructor
  · rintro ⟨i, e, he, rfl⟩
    have hp : permsOf c.nindices i = true := by
      apply Classical.byContradiction
      intro hi
      rw [ins_neg hi] at he
      simp at he
    rw [ins_pos hp] at he
    obtain ⟨ps, hk, -, -, -⟩ := (h.load i).2.1 e he
    obtain ⟨p, hpp⟩ := List.exists_mem_of_ne_nil _ hk.1
    obtain ⟨t, ht, e'⟩ := h.mem_rows.1 ((hk.2.2 p).1 hpp)
    refine ⟨t, ht, ?_⟩
    have := congrArg Prod.fst e'
    simp only at this
    rw [← this]
    unfold permRow
    split <;> simp
  · rintro ⟨t, ht, hk⟩
    have key : ∀ i, i < 3 → (permRow i t).1 = k → ∃ e ∈ (c.ins g i).tree, e.key = k := by
      intro i hi3 hr
      have hp : permsOf c.nindices i = true := by rw [hi]; simp [permsOf]; omega
      obtain ⟨ps, -, hq⟩ := (h.load i).2.2.1 _ (h.mem_rows.2 ⟨t, ht, rfl⟩)
      obtain ⟨x, hx, hxk⟩ := hq (fun hs => by have := hs.1; simp only [Config.params] at this; omega)
      rw [← ins_pos hp] at hx
      exact ⟨x, hx, by rw [hxk, hr]⟩
    rcases hk with rfl | rfl | rfl
    · exact ⟨0, key 0 (by omega) rfl⟩
    · exact ⟨2, key 2 (by omega) rfl⟩
    · exact ⟨1, key 1 (by omega) rfl⟩

theorem top_tree (h : c.Ok g) (hi : c.nindices = 6) {n : Nat} (hn : Largest g n) : top (c.tree g) 0 = n + 1 := by
  have hm := (mem_tree_keys h hi n).2 hn.1
  have hs := h.tree_spec.1
  have hle : ∀ k ∈ (c.tree g).map (·.1), k ≤ n := fun k hk => hn.2 k ((mem_tree_keys h hi k).1 hk)
  unfold top
  cases hl : (c.tree g).getLast? with
  | none =>
    rw [List.getLast?_eq_none_iff] at hl
    rw [hl] at hm
    simp at hm
  | some y =>
    obtain ⟨init, hi'⟩ := List.getLast?_eq_some_iff.1 hl
    have hy : y.1 ≤ n := hle y.1 (by rw [hi']; simp)
    rw [hi', List.map_append, List.pairwise_append] at hs
    rw [hi', List.map_append, List.mem_append] at hm
    simp only [Option.elim_some]
    rcases hm with hm | hm
    · have := hs.2.2 n hm y.1 (by simp)
      omega
    · have : n = y.1 := by simpa using hm
      omega

theorem WritesSop.tree (h : c.Ok g) (hi : c.nindices = 6) (hg : g ≠ []) (hw : WritesSop c g) : (c.ins g 3).tree ≠ [] := by
  have hp : permsOf c.nindices 3 = true := by rw [hi]; rfl
  have key : ∀ t ∈ g, (∀ ps, KeyPairs (c.rows g 3) t.1 ps → ¬ (c.params 3).skips ps) → (c.ins g 3).tree ≠ [] := by
    intro t ht hs
    obtain ⟨ps, hk, hq⟩ := (h.load 3).2.2.1 _ (h.mem_rows.2 ⟨t, ht, rfl⟩)
    have e1 : (permRow 3 t).1 = t.1 := rfl
    rw [e1] at hk
    obtain ⟨x, hx, -⟩ := hq (hs ps hk)
    rw [← ins_pos hp] at hx
    exact List.ne_nil_of_mem hx
  rcases hw with hw | ⟨s, qs, hnd, hlen, hne, hqs⟩
  · obtain ⟨t, ht⟩ := List.exists_mem_of_ne_nil _ hg
    refine key t ht fun ps _ hsk => ?_
    have := hsk.2.1
    simp [Config.params, hw] at this
  · obtain ⟨q, hq⟩ := List.exists_mem_of_ne_nil _ hne
    refine key _ (hqs q hq) fun ps hk hsk => ?_
    have h1 : (qs.map fun q => (q.2, q.1)).Nodup := by
      rw [List.Nodup, List.pairwise_map]
      exact hnd.imp fun hab e => hab (Prod.ext (by simpa using congrArg Prod.snd e) (by simpa using congrArg Prod.fst e))
    have h2 : ∀ x ∈ qs.map fun q => (q.2, q.1), x ∈ ps := by
      intro x hx
      obtain ⟨q, hq, rfl⟩ := List.mem_map.1 hx
      exact (hk.2.2 _).2 (h.mem_rows.2 ⟨_, hqs q hq, rfl⟩)
    have h3 := length_le_of_nodup_subset h1 h2
    have h4 := hsk.2.2
    rw [List.length_map] at h3
    simp only [Config.params] at h4
    omega

theorem room_iff (n : Nat) : 3 ≤ room ((n + 1) * 83) ↔ RoomAfter n := by
  unfold room RoomAfter
  rw [Nat.mul_comm]
  generalize 83 * (n + 1) = x
  omega

theorem treeHas_eq (h : c.Ok g) (k p : Nat) : treeHas c g k p = (rec? k (c.ins g p).tree).map fun t => ⟨t.n, t.strat, t.file, t.pos⟩ := by
  rw [← expected_tree h]
  unfold expected treeHas
  obtain ⟨t1, t2, t3⟩ := h.tree_spec
  cases hl : (c.tree g).lookup k with
  | none => rfl
  | some cs =>
    simp only [Option.bind_some]
    have := t3 (k, cs) (mem_of_lookup hl) p
    simp only at this
    rw [this]
    cases hr : rec? k (c.ins g p).tree with
    | none => rfl
    | some e =>
      simp only [Option.map_some]
      rw [entOf_rec _ _ e hr]
      rfl

theorem no_pso (h : c.Ok g) {n : Nat} (hn : ∀ t ∈ g, t.2.1 ≠ n) : treeHas c g n 5 = none := by
  rw [treeHas_eq h]
  cases hr : rec? n (c.ins g 5).tree with
  | none => rfl
  | some e =>
    obtain ⟨he, hek⟩ := (rec_some (h.mok.sorted 5)).1 hr
    have hp : permsOf c.nindices 5 = true := by
      apply Classical.byContradiction
      intro hi
      rw [ins_neg hi] at he
      simp at he
    rw [ins_pos hp] at he
    obtain ⟨ps, hk, -, -, -⟩ := (h.load 5).2.1 e he
    obtain ⟨p, hpp⟩ := List.exists_mem_of_ne_nil _ hk.1
    obtain ⟨t, ht, e'⟩ := h.mem_rows.1 ((hk.2.2 p).1 hpp)
    have := congrArg Prod.fst e'
    have h5 : (permRow 5 t).1 = t.2.1 := rfl
    rw [h5] at this
    exact absurd (this.trans hek) (hn t ht)

theorem flat_read (h : c.Ok g) (hi : c.nindices = 6) (hw : (c.ins g 3).tree ≠ []) (hf : ∀ i, (c.ins g i).store.files.length ≤ 16384)
    {junk : Nat → Nat → List UInt8} (hj : ∀ k p, (junk k p).length = 8) {n : Nat} (hn : Largest g n) :
    ∃ out, loadFlat .labeled junk (dirsOf c g) (c.tree g) = some out ∧ out.length = 83 * (n + 1) ∧
      (∀ k, k ≤ n → (k < n ∨ RoomAfter n ∨ ∀ t ∈ g, t.2.1 ≠ n) → ∃ f, Flat.get .labeled out k = some f ∧ ∀ p, p < 6 → f p = treeHas c g k p) ∧
      ((RoomAfter n ∨ ∀ t ∈ g, t.2.1 ≠ n) →
        ∃ l, iterate .labeled out out.length 0 0 = some l ∧ l.map (·.1) = List.range (n + 1) ∧ ∀ x ∈ l, ∀ p, p < 6 → x.2 p = treeHas c g x.1 p) ∧
      ((¬ RoomAfter n ∧ treeHas c g n 5 ≠ none) → Flat.get .labeled out n = none) := by
  have hin := Flat.input h hw hf hj
  have hex : ∀ k p, expected (c.tree g) (fun i => (c.ins g i).tree.map entryTree) k p = treeHas c g k p := by
    intro k p
    rw [expected_tree h, treeHas_eq h]
  have hmem : ∀ p, p < 6 → p ∈ Kind.labeled.perms := by
    intro p hp
    simp only [Kind.perms, List.mem_cons, List.not_mem_nil, or_false]
    omega
  obtain ⟨out, a1, a2, a3, a4⟩ := hin.read
  obtain ⟨S, s1, s2, s3⟩ := hin.load
  have hout : out = seg (blk .labeled S) 0 (top (c.tree g) 0) := by
    rw [a1] at s1
    exact Option.some.inj s1
  rw [top_tree h hi hn] at a2 a3 a4 hout
  have hsz : Kind.labeled.size = 83 := rfl
  rw [hsz] at a2
  rw [a2] at a3 a4
  simp only [room_iff] at a3 a4
  have hlast : ∀ p, p ∈ Kind.labeled.perms.getLast? → p = 5 := by
    intro p hp
    have : Kind.labeled.perms.getLast? = some 5 := rfl
    rw [this] at hp
    simpa using hp.symm
  refine ⟨out, a1, by omega, ?_, ?_, ?_⟩
  · intro k hk hc
    obtain ⟨f, f1, f2⟩ := a3 k (by omega) (by
      rcases hc with hc | hc | hc
      · exact .inl (by omega)
      · exact .inr (.inl hc)
      · by_cases hkn : k = n
        · refine .inr (.inr fun p hp => ?_)
          rw [hlast p hp, hex, hkn]
          exact no_pso h hc
        · exact .inl (by omega))
    exact ⟨f, f1, fun p hp => by rw [f2 p (hmem p hp), hex]⟩
  · intro hc
    rw [a2]
    obtain ⟨l, l1, l2, l3⟩ := a4 (by
      rcases hc with hc | hc
      · exact .inl hc
      · refine .inr fun k hk p hp => ?_
        rw [hlast p hp, hex, show k = n by omega]
        exact no_pso h hc)
    exact ⟨l, l1, l2, fun x hx p hp => by rw [l3 x hx p (hmem p hp), hex]⟩
  · rintro ⟨hr, ht⟩
    rw [hout]
    refine get_last s2 (Nat.lt_of_not_le fun h' => hr ((room_iff n).1 h')) ?_
    rw [s3 n 5 (by decide), hex]
    exact ht

end

/-- C50: if the load makes a flat tree, then the lookup of every id up to the largest one is defined and gives for each permutation exactly what the
ordinary tree gives.  Partial: six permutations, some table of SOP is written, at most 16384 files, and the last id is not a predicate or the file does
not end within three bytes of the end of a page; see the violations. -/
theorem C50_lookup_partial (c : Config) (g : List T3) (h : c.Ok g) (hi : c.nindices = 6) (hw : WritesSop c g)
    (hf : ∀ i, (c.ins g i).store.files.length ≤ 16384) (junk : Nat → Nat → List UInt8) (hj : ∀ k p, (junk k p).length = 8)
    (n : Nat) (hn : Largest g n) :
    ∃ out, loadFlat .labeled junk (dirsOf c g) (c.tree g) = some out ∧
      ∀ k, k ≤ n → (k < n ∨ RoomAfter n ∨ ∀ t ∈ g, t.2.1 ≠ n) →
        ∃ f, Flat.get .labeled out k = some f ∧ ∀ p, p < 6 → f p = treeHas c g k p := by
  have hg : g ≠ [] := by rintro rfl; exact absurd hn.1 (by simp [idsOf])
  obtain ⟨out, h1, -, h3, -⟩ := flat_read h hi (hw.tree h hi hg) hf hj hn
  exact ⟨out, h1, h3⟩

/-- C50: iterating over the flat tree gives every id up to the largest one in order, with what the ordinary tree has for it (nothing, if the id is not
used). -/
theorem C50_iteration_partial (c : Config) (g : List T3) (h : c.Ok g) (hi : c.nindices = 6) (hw : WritesSop c g)
    (hf : ∀ i, (c.ins g i).store.files.length ≤ 16384) (junk : Nat → Nat → List UInt8) (hj : ∀ k p, (junk k p).length = 8)
    (n : Nat) (hn : Largest g n) (hr : RoomAfter n ∨ ∀ t ∈ g, t.2.1 ≠ n) :
    ∃ out l, loadFlat .labeled junk (dirsOf c g) (c.tree g) = some out ∧ iterate .labeled out out.length 0 0 = some l ∧
      l.map (·.1) = List.range (n + 1) ∧ ∀ x ∈ l, ∀ p, p < 6 → x.2 p = treeHas c g x.1 p := by
  have hg : g ≠ [] := by rintro rfl; exact absurd hn.1 (by simp [idsOf])
  obtain ⟨out, h1, -, -, h4, -⟩ := flat_read h hi (hw.tree h hi hg) hf hj hn
  obtain ⟨l, l1, l2, l3⟩ := h4 hr
  exact ⟨out, l, h1, l1, l2, l3⟩

theorem flat_loaded {c : Config} {g : List T3} (h : c.Ok g) {m : Mem} {M : Nat → Maps} (hM : ∀ i, i < 6 → Mapped m (M i) (c.ins g i).store.files)
    {out : List UInt8} {n : Nat} (hi : c.nindices = 6) (hn : Largest g n) (hlen : out.length = 83 * (n + 1))
    (hget : ∀ k, k ≤ n → ∃ f, Flat.get .labeled out k = some f ∧ ∀ p, p < 6 → f p = treeHas c g k p) :
    Loaded (openFlat c g m M out) (g.map T3.triple) := by
  have hL := h.loaded hM
  have key : ∀ (d : Order) k e, (∃ cs, (openFlat c g m M out).coords k = some cs ∧ cs d.idx = some e) ↔
      ∃ cs, (c.open' g m M).coords k = some cs ∧ cs d.idx = some e := by
    intro d k e
    have hd : d.idx < 6 := by cases d <;> simp [Order.idx]
    rw [h.coords_some]
    constructor
    · rintro ⟨cs, hc, he⟩
      simp only [openFlat] at hc
      by_cases hk : 0 ≤ k
      · rw [if_pos hk, Option.map_eq_some_iff] at hc
        obtain ⟨f, hf, rfl⟩ := hc
        rw [Option.map_eq_some_iff] at he
        obtain ⟨x, hx, rfl⟩ := he
        by_cases hkn : k.toNat ≤ n
        · obtain ⟨f', hf', hp⟩ := hget _ hkn
          rw [hf] at hf'
          cases hf'
          rw [hp _ hd, treeHas_eq h, Option.map_eq_some_iff] at hx
          obtain ⟨t, ht, rfl⟩ := hx
          obtain ⟨hm, hkt⟩ := (rec_some (h.mok.sorted _)).1 ht
          exact ⟨t, hm, by omega, rfl⟩
        · rw [get_after (by rw [hlen]; show _ ≤ k.toNat * 83; omega) hf] at hx
          simp at hx
      · rw [if_neg hk] at hc
        simp at hc
    · rintro ⟨t, ht, hk, rfl⟩
      have hkn : t.key ≤ n := hn.2 _ ((mem_tree_keys h hi _).1 ((h.tree_spec.2.1 _).2 ⟨_, t, ht, rfl⟩))
      obtain ⟨f, hf, hp⟩ := hget _ hkn
      have hkt : k.toNat = t.key := by omega
      refine ⟨_, by simp only [openFlat]; rw [if_pos (by omega), hkt, hf, Option.map_some], ?_⟩
      show (f d.idx).map _ = _
      rw [hp _ hd, treeHas_eq h, (rec_some (h.mok.sorted _)).2 ⟨ht, rfl⟩]
      rfl
  refine ⟨hL.keys, hL.partner, ?_, ?_, ?_⟩
  · intro d k cs e hc he
    obtain ⟨cs', hc', he'⟩ := (key d k e).1 ⟨cs, hc, he⟩
    exact hL.tables d k cs' e hc' he'
  · intro d hd hp t ht
    obtain ⟨cs, e, h1, h2⟩ := hL.complete d hd hp t ht
    obtain ⟨cs', h1', h2'⟩ := (key d _ e).2 ⟨cs, h1, h2⟩
    exact ⟨cs', e, h1', h2'⟩
  · intro d
    have hfl := hL.files d
    have hfe : (openFlat c g m M out).files d.idx = (c.open' g m M).files d.idx := rfl
    rw [hfe]
    cases hfd : (c.open' g m M).files d.idx with
    | none =>
      rw [hfd] at hfl
      simp only at hfl ⊢
      intro k cs hc
      cases hcs : cs d.idx with
      | none => rfl
      | some e =>
        obtain ⟨cs', hc', he'⟩ := (key d k e).1 ⟨cs, hc, hcs⟩
        rw [hfl k cs' hc'] at he'
        simp at he'
    | some l =>
      rw [hfd] at hfl
      simp only at hfl ⊢
      exact ⟨hfl.1, fun k e => (hfl.2 k e).trans (key d k e).symm⟩

/-- C50: with the flat tree a pattern query whose terms are ids up to the largest one returns the rows of exactly the matching triples, each once,
sorted (C21), and all its lookups are defined. -/
theorem C50_query_partial (c : Config) (g : List T3) (h : c.Ok g) (hi : c.nindices = 6) (hw : WritesSop c g)
    (hf : ∀ i, (c.ins g i).store.files.length ≤ 16384) (junk : Nat → Nat → List UInt8) (hj : ∀ k p, (junk k p).length = 8)
    (n : Nat) (hn : Largest g n) (hr : RoomAfter n ∨ ∀ t ∈ g, t.2.1 ≠ n)
    (m : Mem) (M : Nat → Maps) (hM : ∀ i, i < 6 → Mapped m (M i) (c.ins g i).store.files) (E : Env) (hE : SortsPairs E.sortP) (hfuel : g.length < E.fuel)
    (q : Pattern) (hq : ∀ x, ∀ v ∈ q.at x, 0 ≤ v ∧ v ≤ n) :
    ∃ out, loadFlat .labeled junk (dirsOf c g) (c.tree g) = some out ∧ (∀ x, ∀ v ∈ q.at x, (Flat.get .labeled out v.toNat).isSome = true) ∧
      ∃ d res, getIndex (argOfPos q.s) (argOfPos q.p) (argOfPos q.o) = Order.idx d ∧
        ((openFlat c g m M out).getIterator E (getIndex (argOfPos q.s) (argOfPos q.p) (argOfPos q.o)) (argOfPos q.s) (argOfPos q.p) (argOfPos q.o)).Returns res ∧
        res.Pairwise Row3.lt ∧ ∀ r, r ∈ res ↔ ∃ t ∈ g.map T3.triple, q.Matches t ∧ d.row t = r := by
  have hg : g ≠ [] := by rintro rfl; exact absurd hn.1 (by simp [idsOf])
  obtain ⟨out, h1, h2, h3, -⟩ := flat_read h hi (hw.tree h hi hg) hf hj hn
  have hget : ∀ k, k ≤ n → ∃ f, Flat.get .labeled out k = some f ∧ ∀ p, p < 6 → f p = treeHas c g k p := fun k hk => h3 k hk (.inr hr)
  have hL := flat_loaded h hM hi hn h2 hget
  refine ⟨out, h1, ?_, ?_⟩
  · intro x v hv
    obtain ⟨f, hf, -⟩ := hget v.toNat (by have := (hq x v hv).2; omega)
    rw [hf]
    rfl
  · refine C21_chosen_index_partial _ _ hL E hE (by simpa using hfuel) q (fun x v hv => (hq x v hv).1) (by simpa using hg) ?_
    intro d
    refine .inl ?_
    show permsOf c.nindices d.idx = true
    rw [hi]
    cases d <;> rfl

/-- C50 does not hold for ids that are too large (terms added by updates, or unknown ids): the flat tree reads memory that is not mapped, where the
ordinary tree answers that there is nothing. -/
theorem C50_range_violated (out : List UInt8) : ∃ n, ∀ k, n ≤ k → Flat.get .labeled out k = none := by
  refine ⟨(pages out).length, fun k hk => get_far ?_⟩
  show _ ≤ k * 83
  omega

/-- C50 does not hold for the largest id of a graph if it is a predicate with a table and the file ends with its page: the position of the last
permutation is read with three bytes too many. -/
theorem C50_page_violated (c : Config) (g : List T3) (h : c.Ok g) (hi : c.nindices = 6) (hw : WritesSop c g)
    (hf : ∀ i, (c.ins g i).store.files.length ≤ 16384) (junk : Nat → Nat → List UInt8) (hj : ∀ k p, (junk k p).length = 8)
    (n : Nat) (hn : Largest g n) (hr : ¬ RoomAfter n) (hp : treeHas c g n 5 ≠ none) :
    ∃ out, loadFlat .labeled junk (dirsOf c g) (c.tree g) = some out ∧ Flat.get .labeled out n = none := by
  have hg : g ≠ [] := by rintro rfl; exact absurd hn.1 (by simp [idsOf])
  obtain ⟨out, h1, -, -, -, h5⟩ := flat_read h hi (hw.tree h hi hg) hf hj hn
  exact ⟨out, h1, h5 ⟨hr, hp⟩⟩

/-- C50 does not hold with three permutations: the load with a flat tree fails, because there are no SOP tables. -/
theorem C50_three_violated (c : Config) (g : List T3) (hi : c.nindices = 3) (junk : Nat → Nat → List UInt8) (K : Kind) :
    loadFlat K junk (dirsOf c g) (c.tree g) = none := by
  have h3 : (c.ins g 3).tree = [] := by rw [ins_neg (by rw [hi]; decide)]
  unfold loadFlat writeFirst dirsOf
  rw [h3]
  rfl

/-! ## Cases that meet the hypotheses -/

theorem config_ok {c : Config} {g : List T3} (hs : SortsRows c.sort) (hn : c.nindices = 6) (h1 : c.skipThr < THRESHOLD) (h2 : c.fixed = none)
    (h3 : ∀ t ∈ g, t.1 < 2 ^ 39 ∧ t.2.1 < 2 ^ 39 ∧ t.2.2 < 2 ^ 39) (h4 : g.length < 2 ^ 31)
    (h5 : ∀ i, i < 6 → (c.ins g i).store.files.length ≤ 16384 ∧ ∀ f ∈ (c.ins g i).store.files, f.bytes.length < 2 ^ 40) :
    c.Ok g ∧ ∀ i, (c.ins g i).store.files.length ≤ 16384 := by
  have hall : ∀ i, (c.ins g i).store.files.length ≤ 16384 ∧ ∀ f ∈ (c.ins g i).store.files, f.bytes.length < 2 ^ 40 := by
    intro i
    by_cases hi : i < 6
    · exact h5 i hi
    · rw [ins_neg (fun h => hi (permsOf_lt h))]
      decide
  exact ⟨⟨hs, .inr (.inr (.inr hn)), h1, .inl h2, h3, h4, fun i => by have := (hall i).1; omega, fun i => (hall i).2⟩, fun i => (hall i).1⟩

/-- A graph with unused ids and predicates; the smallest tables of SOP, OSP and PSO are skipped. -/
def exFlatGraph : List T3 := [(7, 1, 3), (2, 1, 5), (7, 1, 3), (2, 4, 7), (7, 1, 2)]

theorem exFlatOk : exConfig.Ok exFlatGraph ∧ ∀ i, (exConfig.ins exFlatGraph i).store.files.length ≤ 16384 :=
  config_ok sortRows_sorts rfl (by decide) rfl (by decide) (by decide) (by decide +kernel)

theorem exFlatSop : WritesSop exConfig exFlatGraph :=
  .inr ⟨7, [(1, 3), (1, 2)], by decide, by decide, by decide, by decide⟩

theorem exFlatLargest : Largest exFlatGraph 7 := by
  constructor <;> decide

/-- The buffers contain bytes 170. -/
def exJunk (_ _ : Nat) : List UInt8 := List.replicate 8 170

/-- The hypotheses of the theorems hold. -/
example : ∃ out, loadFlat .labeled exJunk (dirsOf exConfig exFlatGraph) (exConfig.tree exFlatGraph) = some out ∧
    ∀ k, k ≤ 7 → ∃ f, Flat.get .labeled out k = some f ∧ ∀ p, p < 6 → f p = treeHas exConfig exFlatGraph k p := by
  obtain ⟨out, h1, h2⟩ := C50_lookup_partial exConfig exFlatGraph exFlatOk.1 rfl exFlatSop exFlatOk.2 exJunk (fun _ _ => rfl) 7 exFlatLargest
  exact ⟨out, h1, fun k hk => h2 k hk (.inr (.inl (by decide)))⟩

example : ∃ out l, loadFlat .labeled exJunk (dirsOf exConfig exFlatGraph) (exConfig.tree exFlatGraph) = some out ∧ iterate .labeled out out.length 0 0 = some l ∧
    l.map (·.1) = [0, 1, 2, 3, 4, 5, 6, 7] ∧ ∀ x ∈ l, ∀ p, p < 6 → x.2 p = treeHas exConfig exFlatGraph x.1 p :=
  C50_iteration_partial exConfig exFlatGraph exFlatOk.1 rfl exFlatSop exFlatOk.2 exJunk (fun _ _ => rfl) 7 exFlatLargest (.inl (by decide))

example : ∃ m M out res, (∀ i, i < 6 → Mapped m (M i) (exConfig.ins exFlatGraph i).store.files) ∧
    ((openFlat exConfig exFlatGraph m M out).getIterator ⟨isort, msort, 100⟩ (getIndex 7 1 (-1)) 7 1 (-1)).Returns res := by
  obtain ⟨m, M, hM⟩ := exists_mapped fun i => (exConfig.ins exFlatGraph i).store.files
  obtain ⟨out, -, -, d, res, -, hr, -⟩ := C50_query_partial exConfig exFlatGraph exFlatOk.1 rfl exFlatSop exFlatOk.2 exJunk (fun _ _ => rfl) 7 exFlatLargest
    (.inl (by decide)) m M hM ⟨isort, msort, 100⟩ isort_sorts (show 5 < 100 by omega) ⟨some 7, some 1, none⟩
    (by intro x v hv; cases x <;> simp [Pattern.at] at hv <;> omega)
  exact ⟨m, M, out, res, hM, hr⟩

/-- What is read: the subject 7 has three pairs in SPO and OPS has one table for it; nothing is known of 6. -/
example : ((loadFlat .labeled exJunk (dirsOf exConfig exFlatGraph) (exConfig.tree exFlatGraph)).bind fun out =>
      (Flat.get .labeled out 7).map fun f => (List.range 6).map fun p => (f p).map (·.n)) = some [some 2, some 1, none, some 2, none, none] ∧
    ((loadFlat .labeled exJunk (dirsOf exConfig exFlatGraph) (exConfig.tree exFlatGraph)).bind fun out =>
      (Flat.get .labeled out 6).map fun f => (List.range 6).map fun p => (f p).map (·.n)) = some [none, none, none, none, none, none] := by
  decide +kernel

/-- A graph whose largest id is 4095, which is a predicate. -/
def exPage : List T3 := [(4095, 4095, 4095)]

def exPageConfig : Config := { exConfig with canSkip := false }

theorem exPageOk : exPageConfig.Ok exPage ∧ ∀ i, (exPageConfig.ins exPage i).store.files.length ≤ 16384 :=
  config_ok sortRows_sorts rfl (by decide) rfl (by decide) (by decide) (by decide +kernel)

example : ∃ out, loadFlat .labeled exJunk (dirsOf exPageConfig exPage) (exPageConfig.tree exPage) = some out ∧ Flat.get .labeled out 4095 = none := by
  refine C50_page_violated exPageConfig exPage exPageOk.1 rfl (.inl rfl) exPageOk.2 exJunk (fun _ _ => rfl) 4095 (by constructor <;> decide) (by decide) ?_
  have : (treeHas exPageConfig exPage 4095 5).isSome = true := by decide +kernel
  intro h
  rw [h] at this
  simp at this

end Trident
