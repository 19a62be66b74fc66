import Verif.Load.LoaderProofs
/-!
# C21: pattern queries are sound and complete
-/
namespace Trident
open Strat Load

/-- The querier can read the order: it is stored, or the order it is rebuilt from is. -/
def KB.Reads (kb : KB) (d : Order) : Prop := kb.present d.idx = true ∨ (d.idx ≥ 3 ∧ kb.present (d.idx - 3) = true)

/-- The result of a query is an iterator that returns `out`. -/
def QRes.Returns (r : QRes) (out : List Row3) : Prop := ∃ o, r = .itr o ∧ o.Returns out

theorem permute_args (d : Order) (q : Pattern) : permute d.idx (argOfPos q.s) (argOfPos q.p) (argOfPos q.o) =
    (argOfPos (q.at d.positions.1), argOfPos (q.at d.positions.2.1), argOfPos (q.at d.positions.2.2)) := by
  cases d <;> rfl

theorem matches_iff (d : Order) (q : Pattern) (t : Triple) : q.Matches t ↔ (∀ v ∈ q.at d.positions.1, d.key t = v) ∧
    (∀ v ∈ q.at d.positions.2.1, (d.pair t).1 = v) ∧ ∀ v ∈ q.at d.positions.2.2, (d.pair t).2 = v := by
  constructor
  · intro h; exact ⟨h _, h _, h _⟩
  · rintro ⟨h1, h2, h3⟩ x
    cases d <;> cases x <;> assumption

/-- C21 on a stored graph: in any order that can be read and has the fixed positions first, the query returns the rows of
exactly the matching triples, each once, sorted.  (Without a fixed position the graph must not be empty, see
`C21_empty_graph_violated`.) -/
theorem C21_stored_partial (kb : KB) (g : List Triple) (h : Loaded kb g) (E : Env) (hE : SortsPairs E.sortP)
    (hf : g.length < E.fuel) (q : Pattern) (hq : q.Wf) (d : Order) (hd : kb.Reads d)
    (h1 : (q.at d.positions.2.1).isSome → (q.at d.positions.1).isSome)
    (h2 : (q.at d.positions.2.2).isSome → (q.at d.positions.2.1).isSome)
    (hg : g ≠ [] ∨ (q.at d.positions.1).isSome) :
    ∃ out, (kb.getIterator E d.idx (argOfPos q.s) (argOfPos q.p) (argOfPos q.o)).Returns out ∧
      out.Pairwise Row3.lt ∧ ∀ r, r ∈ out ↔ ∃ t ∈ g, q.Matches t ∧ d.row t = r := by
  have hd' : kb.present d.idx = true ∨ (d.idx ≥ 3 ∧ kb.present (d.idx - 3) = true) := hd
  unfold KB.getIterator
  rw [if_pos hd']
  simp only [permute_args]
  cases hk : q.at d.positions.1 with
  | some k =>
    have hk0 : 0 ≤ k := hq _ k hk
    have harg : argOfPos (some k) = k := rfl
    rw [harg, if_pos hk0]
    have hcc : q.at d.positions.2.1 = none → q.at d.positions.2.2 = none := by
      intro e; rw [e] at h2
      cases hx : q.at d.positions.2.2 with
      | none => rfl
      | some v => rw [hx] at h2; simp at h2
    cases hc : kb.coords k with
    | some cs =>
      obtain ⟨out, o1, o2, o3⟩ := h.get_returns hE hf d hd hc (q.at d.positions.2.1) (q.at d.positions.2.2)
        (hq _) (hq _) hcc
      refine ⟨out.map fun p => (k, p), ⟨_, rfl, withKey_yields o1⟩, ?_, ?_⟩
      · exact List.pairwise_map.2 (o2.imp fun h => .inr ⟨rfl, h⟩)
      · intro r
        rw [List.mem_map]
        constructor
        · rintro ⟨p, hp, rfl⟩
          obtain ⟨⟨t, ht, e1, e2⟩, e3, e4⟩ := (o3 p).1 hp
          refine ⟨t, ht, (matches_iff d q t).2 ⟨?_, ?_, ?_⟩, ?_⟩
          · rw [hk]; rintro v ⟨⟩; exact e1
          · rw [e2]; exact e3
          · rw [e2]; exact e4
          · rw [Order.row, e1, e2]
        · rintro ⟨t, ht, hm, rfl⟩
          obtain ⟨m1, m2, m3⟩ := (matches_iff d q t).1 hm
          have e1 : d.key t = k := m1 k hk
          exact ⟨d.pair t, (o3 _).2 ⟨⟨t, ht, e1, rfl⟩, m2, m3⟩, by rw [Order.row, e1]⟩
    | none =>
      refine ⟨[], ⟨_, rfl, .done rfl⟩, .nil, fun r => ⟨fun h => absurd h List.not_mem_nil, ?_⟩⟩
      rintro ⟨t, ht, hm, -⟩
      have e1 : d.key t = k := ((matches_iff d q t).1 hm).1 k hk
      by_cases h3 : d.idx ≥ 3
      · obtain ⟨d', a1, a2, -⟩ := d.exists_partner h3
        have hp : kb.present (d.idx - 3) = true := by
          rcases hd with hp | hp
          · exact h.partner _ h3 hp
          · exact hp.2
        have hlt : d.idx - 3 < 3 := by cases d <;> simp [Order.idx]
        obtain ⟨cs, e, q1, -⟩ := h.complete d' (by rw [a1]; exact hlt) (by rw [a1]; exact hp) t ht
        rw [← a2, e1, hc] at q1
        simp at q1
      · obtain ⟨cs, e, q1, -⟩ := h.complete d (by omega) (by
          rcases hd with hp | hp
          · exact hp
          · exact absurd hp.1 h3) t ht
        rw [e1, hc] at q1
        simp at q1
  | none =>
    rw [hk] at h1 hg
    have e2 : q.at d.positions.2.1 = none := by
      cases hx : q.at d.positions.2.1 with
      | none => rfl
      | some v => rw [hx] at h1; simp at h1
    have e3 : q.at d.positions.2.2 = none := by
      cases hx : q.at d.positions.2.2 with
      | none => rfl
      | some v => rw [hx, e2] at h2; simp at h2
    have harg : ¬ argOfPos none ≥ 0 := by simp [argOfPos]
    rw [if_neg harg]
    obtain ⟨s, out, a, b, c, e⟩ := h.scan hE hf d hd (by
      rcases hg with hg | hg
      · exact hg
      · simp at hg)
    simp only [a]
    refine ⟨out, ⟨_, rfl, b⟩, c, fun r => ?_⟩
    rw [e]
    constructor
    · rintro ⟨t, ht, hr⟩
      exact ⟨t, ht, (matches_iff d q t).2 (by rw [hk, e2, e3]; simp), hr⟩
    · rintro ⟨t, ht, -, hr⟩
      exact ⟨t, ht, hr⟩

/-- C21: the same for the index the querier chooses. -/
theorem C21_chosen_index_partial (kb : KB) (g : List Triple) (h : Loaded kb g) (E : Env) (hE : SortsPairs E.sortP)
    (hf : g.length < E.fuel) (q : Pattern) (hq : q.Wf) (hg : g ≠ [])
    (hall : ∀ d, kb.Reads d) :
    ∃ d out, getIndex (argOfPos q.s) (argOfPos q.p) (argOfPos q.o) = Order.idx d ∧
      (kb.getIterator E (getIndex (argOfPos q.s) (argOfPos q.p) (argOfPos q.o))
        (argOfPos q.s) (argOfPos q.p) (argOfPos q.o)).Returns out ∧
      out.Pairwise Row3.lt ∧ ∀ r, r ∈ out ↔ ∃ t ∈ g, q.Matches t ∧ d.row t = r := by
  obtain ⟨d, e, h1, h2⟩ := C20_bound_first q hq
  obtain ⟨out, a, b, c⟩ := C21_stored_partial kb g h E hE hf q hq d (hall d) h1 h2 (.inl hg)
  exact ⟨d, out, e, by rw [e]; exact a, b, c⟩

/-- C21 from the input to the answer: load any non-empty list of triples (with repetitions) with three or six indices, any
fixed or chosen layouts, any file size, any skipping of small tables; map the files; then every query on the index the
querier chooses returns exactly the matching triples, each once, sorted by the order of the index. -/
theorem C21_load_then_query_partial (c : Config) (g : List T3) (h : c.Ok g) (hi : c.nindices = 3 ∨ c.nindices = 6)
    (m : Mem) (M : Nat → Maps) (hM : ∀ i, i < 6 → Mapped m (M i) (c.ins g i).store.files)
    (E : Env) (hE : SortsPairs E.sortP) (hf : g.length < E.fuel) (q : Pattern) (hq : q.Wf) (hg : g ≠ []) :
    ∃ d out, getIndex (argOfPos q.s) (argOfPos q.p) (argOfPos q.o) = Order.idx d ∧
      ((c.open' g m M).getIterator E (getIndex (argOfPos q.s) (argOfPos q.p) (argOfPos q.o))
        (argOfPos q.s) (argOfPos q.p) (argOfPos q.o)).Returns out ∧
      out.Pairwise Row3.lt ∧ ∀ r, r ∈ out ↔ ∃ t ∈ g, q.Matches t.triple ∧ d.row t.triple = r := by
  obtain ⟨d, out, a, b, c', e⟩ := C21_chosen_index_partial (c.open' g m M) _ (h.loaded hM) E hE (by simpa using hf) q hq
    (by simpa using hg) (fun d => by
      unfold KB.Reads
      show permsOf c.nindices _ = true ∨ _ ∧ permsOf c.nindices _ = true
      rcases hi with e | e <;> rw [e] <;> cases d <;> decide)
  refine ⟨d, out, a, b, c', fun r => (e r).trans ?_⟩
  constructor
  · rintro ⟨t', ht', h1, h2⟩
    obtain ⟨t, ht, rfl⟩ := List.mem_map.1 ht'
    exact ⟨t, ht, h1, h2⟩
  · rintro ⟨t, ht, h1, h2⟩
    exact ⟨_, List.mem_map.2 ⟨t, ht, rfl⟩, h1, h2⟩

/-- C21 with any number of indices: whatever index is asked for, if it can be read and has the fixed positions first. -/
theorem C21_load_then_query_index_partial (c : Config) (g : List T3) (h : c.Ok g)
    (m : Mem) (M : Nat → Maps) (hM : ∀ i, i < 6 → Mapped m (M i) (c.ins g i).store.files)
    (E : Env) (hE : SortsPairs E.sortP) (hf : g.length < E.fuel) (q : Pattern) (hq : q.Wf) (d : Order)
    (hd : permsOf c.nindices d.idx = true ∨ (d.idx ≥ 3 ∧ permsOf c.nindices (d.idx - 3) = true))
    (h1 : (q.at d.positions.2.1).isSome → (q.at d.positions.1).isSome)
    (h2 : (q.at d.positions.2.2).isSome → (q.at d.positions.2.1).isSome)
    (hg : g ≠ [] ∨ (q.at d.positions.1).isSome) :
    ∃ out, ((c.open' g m M).getIterator E d.idx (argOfPos q.s) (argOfPos q.p) (argOfPos q.o)).Returns out ∧
      out.Pairwise Row3.lt ∧ ∀ r, r ∈ out ↔ ∃ t ∈ g, q.Matches t.triple ∧ d.row t.triple = r := by
  obtain ⟨out, b, c', e⟩ := C21_stored_partial (c.open' g m M) _ (h.loaded hM) E hE (by simpa using hf) q hq d hd h1 h2
    (by simpa using hg)
  refine ⟨out, b, c', fun r => (e r).trans ?_⟩
  constructor
  · rintro ⟨t', ht', h1, h2⟩
    obtain ⟨t, ht, rfl⟩ := List.mem_map.1 ht'
    exact ⟨t, ht, h1, h2⟩
  · rintro ⟨t, ht, h1, h2⟩
    exact ⟨_, List.mem_map.2 ⟨t, ht, rfl⟩, h1, h2⟩

/-- C21 is false for the empty graph: without any fixed position the querier reads outside of the array of
storage objects. -/
theorem C21_empty_graph_violated (c : Config) (h : c.Ok []) (m : Mem) (M : Nat → Maps) (E : Env) :
    (c.open' [] m M).getIterator E 0 (-1) (-1) (-1) = .undef := by
  have hp : (c.open' [] m M).present 0 = true := by
    show permsOf c.nindices 0 = true
    rcases h.nindices with e | e | e | e <;> rw [e] <;> decide
  have ht : (c.ins [] 0).tree = [] := by
    cases hl : (c.ins [] 0).tree with
    | nil => rfl
    | cons e l =>
      have hi : permsOf c.nindices 0 = true := hp
      have he : e ∈ (c.ins [] 0).tree := by rw [hl]; simp
      rw [ins_pos hi] at he
      obtain ⟨ps, a, -⟩ := (h.load 0).2.1 e he
      obtain ⟨p, hp⟩ := List.exists_mem_of_ne_nil _ a.1
      obtain ⟨t, ht, -⟩ := h.mem_rows.1 ((a.2.2 p).1 hp)
      simp at ht
  have hf : (c.open' [] m M).files 0 = none := by simp only [Config.open', if_pos ht]
  unfold KB.getIterator
  rw [if_pos (.inl hp)]
  simp [permute, Scan.init, hf]

/-! ## The hypotheses are met -/

/-- Insertion sort of rows, for the examples. -/
def insertRow (x : T3) : List T3 → List T3
  | [] => [x]
  | y :: l => if x.1 < y.1 ∨ (x.1 = y.1 ∧ (x.2.1 < y.2.1 ∨ (x.2.1 = y.2.1 ∧ x.2.2 ≤ y.2.2))) then x :: y :: l
    else y :: insertRow x l

def sortRows : List T3 → List T3
  | [] => []
  | x :: l => insertRow x (sortRows l)

theorem insertRow_perm (x : T3) (l : List T3) : (insertRow x l).Perm (x :: l) := by
  induction l with
  | nil => exact .refl _
  | cons y l ih =>
    rw [insertRow]
    split
    · exact .refl _
    · exact (ih.cons y).trans (.swap x y l)

theorem insertRow_sorted (x : T3) (l : List T3) (h : l.Pairwise rowLe) : (insertRow x l).Pairwise rowLe := by
  induction l with
  | nil => simp [insertRow]
  | cons y l ih =>
    rw [List.pairwise_cons] at h
    rw [insertRow]
    split
    · rename_i hc
      refine List.pairwise_cons.2 ⟨?_, List.pairwise_cons.2 h⟩
      intro z hz
      rcases List.mem_cons.1 hz with rfl | hz
      · exact hc
      · have := h.1 z hz
        simp only [rowLe] at *; omega
    · rename_i hc
      refine List.pairwise_cons.2 ⟨?_, ih h.2⟩
      intro z hz
      rcases List.mem_cons.1 ((insertRow_perm x l).mem_iff.1 hz) with rfl | hz
      · simp only [rowLe]; omega
      · exact h.1 z hz

theorem sortRows_sorts : SortsRows sortRows := by
  intro l
  induction l with
  | nil => exact ⟨.nil, .refl _⟩
  | cons x l ih => exact ⟨insertRow_sorted x _ ih.1, (insertRow_perm x _).trans (ih.2.cons x)⟩

/-- Six indices, tables of less than two pairs are not stored in orders 3-5, files of more than 20 bytes are full. -/
def exConfig : Config := ⟨6, true, 2, none, 10, false, 9, 20, sortRows⟩

def exGraph : List T3 := [(7, 1, 300), (2, 1, 70000), (7, 1, 300), (2, 4, 7), (7, 1, 2)]

theorem exOk : exConfig.Ok exGraph where
  sort := sortRows_sorts
  nindices := by decide
  skip := by decide
  fixed := .inl rfl
  ids := by decide
  len := by decide
  nfiles := by
    intro i
    by_cases hi : i < 6
    · have : ∀ i, i < 6 → (exConfig.ins exGraph i).store.files.length ≤ 2 ^ 15 := by decide +kernel
      exact this i hi
    · have : ¬ permsOf 6 i = true := fun h => hi (permsOf_lt h)
      rw [ins_neg this]; decide
  fsize := by
    intro i
    by_cases hi : i < 6
    · have : ∀ i, i < 6 → ∀ f ∈ (exConfig.ins exGraph i).store.files, f.bytes.length < 2 ^ 40 := by decide +kernel
      exact this i hi
    · have : ¬ permsOf 6 i = true := fun h => hi (permsOf_lt h)
      rw [ins_neg this]; decide

/-- A query on the example: predicate 1.  The querier chooses PSO and rebuilds nothing or the table of the key. -/
example : ∃ m M out, (∀ i, i < 6 → Mapped m (M i) (exConfig.ins exGraph i).store.files) ∧
    ((exConfig.open' exGraph m M).getIterator ⟨isort, msort, 100⟩ (getIndex (-1) 1 (-1)) (-1) 1 (-1)).Returns out ∧
    out.Pairwise Row3.lt ∧ ∀ r, r ∈ out ↔ r = (1, 2, 70000) ∨ r = (1, 7, 300) ∨ r = (1, 7, 2) := by
  obtain ⟨m, M, hM⟩ := exists_mapped fun i => (exConfig.ins exGraph i).store.files
  obtain ⟨d, out, a, b, c, e⟩ := C21_load_then_query_partial exConfig exGraph exOk (.inr rfl) m M hM ⟨isort, msort, 100⟩
    isort_sorts (show 5 < 100 by omega) ⟨none, some 1, none⟩ (by intro x v hv; cases x <;> simp [Pattern.at] at hv; omega) (by decide)
  have hd : d = .pso := by
    cases d <;> first | rfl | exact absurd a (by decide)
  subst hd
  have hmt : ∀ t : T3, (⟨none, some 1, none⟩ : Pattern).Matches t.triple ↔ t.2.1 = 1 := by
    intro t
    rw [matches_iff .pso]
    simp [Pattern.at, Order.positions, Order.key, Triple.at, T3.triple]
    omega
  refine ⟨m, M, out, hM, b, c, fun r => (e r).trans ?_⟩
  simp only [hmt]
  constructor
  · rintro ⟨t, ht, h1, rfl⟩
    simp only [exGraph, List.mem_cons, List.not_mem_nil, or_false] at ht
    rcases ht with rfl | rfl | rfl | rfl | rfl
    · exact .inr (.inl rfl)
    · exact .inl rfl
    · exact .inr (.inl rfl)
    · simp at h1
    · exact .inr (.inr rfl)
  · rintro (rfl | rfl | rfl)
    · exact ⟨(2, 1, 70000), by simp [exGraph], rfl, rfl⟩
    · exact ⟨(7, 1, 300), by simp [exGraph], rfl, rfl⟩
    · exact ⟨(7, 1, 2), by simp [exGraph], rfl, rfl⟩

end Trident
