import Verif.Query.DistinctProofs
import Verif.Props.Scan
/-!
# C88: reading a pattern without its last column

`getIteratorD` is `getIterator` followed by `ignoreSecondColumn`: the rows are a key, a first value and how often the first value occurs for the key (`getCount`).
-/
namespace Trident
open Strat Load

/-- The number of triples with this key and first value in the order. -/
def countOf (ts : List Triple) (d : Order) (k v : Int) : Nat := (ts.filter fun t => d.key t = k ∧ (d.pair t).1 = v).length

/-- The querier `getD` that ignores the second column answers from the list of triples `ts`: each key and first value that the pattern allows and that some triple has, once, with the
number of its triples, sorted. -/
def AnswersD (getD : Nat → Int → Int → Int → QRes) (ts : List Triple) : Prop :=
  ∀ (q : Pattern) (d : Order), q.Wf → ((q.at d.positions.2.1).isSome → (q.at d.positions.1).isSome) → q.at d.positions.2.2 = none →
    ∃ out o, getD d.idx (argOfPos q.s) (argOfPos q.p) (argOfPos q.o) = .itr o ∧ o.Returns out ∧ out.Pairwise Row3.lt2 ∧
      ∀ k v c, (k, (v, c)) ∈ out ↔ (∀ a ∈ q.at d.positions.1, k = a) ∧ (∀ b ∈ q.at d.positions.2.1, v = b) ∧ c = (countOf ts d k v : Int) ∧ 0 < c

theorem count_pairs {g ts : List Triple} (hn : ts.Nodup) (hm : ∀ t, t ∈ ts ↔ t ∈ g) {d : Order} {k : Int} {ps : List Pair} (hs : SortedS ps) (h : PairsOf g d k ps) (v : Int) :
    (ps.filter fun p => p.1 = v).length = countOf ts d k v := by
  rw [((pairs_perm hn hm hs h).filter _).length_eq, List.filter_map, List.length_map, List.filter_filter, countOf]
  congr 1
  refine List.filter_congr fun t _ => ?_
  by_cases h1 : d.key t = k <;> by_cases h2 : (d.pair t).1 = v <;> simp [h1, h2]

/-- **C88** on a stored graph: in any order that can be read, has the fixed positions first and ends with a position that is not fixed. -/
theorem C88_stored_partial (kb : KB) (g : List Triple) (h : Loaded kb g) (E : Env) (hE : SortsPairs E.sortP) (hf : g.length < E.fuel)
    (ts : List Triple) (hn : ts.Nodup) (hm : ∀ t, t ∈ ts ↔ t ∈ g) (q : Pattern) (hq : q.Wf) (d : Order) (hd : kb.Reads d)
    (h1 : (q.at d.positions.2.1).isSome → (q.at d.positions.1).isSome) (h2 : q.at d.positions.2.2 = none) (hg : g ≠ [] ∨ (q.at d.positions.1).isSome) :
    ∃ out, (kb.getIteratorD E d.idx (argOfPos q.s) (argOfPos q.p) (argOfPos q.o)).Returns out ∧ out.Pairwise Row3.lt2 ∧
      ∀ k v c, (k, (v, c)) ∈ out ↔ (∀ a ∈ q.at d.positions.1, k = a) ∧ (∀ b ∈ q.at d.positions.2.1, v = b) ∧ c = (countOf ts d k v : Int) ∧ 0 < c := by
  have hd' : kb.present d.idx = true ∨ (d.idx ≥ 3 ∧ kb.present (d.idx - 3) = true) := hd
  unfold KB.getIteratorD
  rw [if_pos hd']
  simp only [permute_args]
  cases hk : q.at d.positions.1 with
  | some k =>
    have hk0 : 0 ≤ k := hq _ k hk
    have harg : argOfPos (some k) = k := rfl
    rw [harg, if_pos hk0]
    cases hc : kb.coords k with
    | some cs =>
      obtain ⟨ps, out, o1, o2, o3, o4⟩ := h.getD_returns hE hf d hd hc (q.at d.positions.2.1) (hq _)
      refine ⟨out.map fun p => (k, p), ⟨_, rfl, withKey_yields (by rw [h2]; exact o1)⟩, ?_, ?_⟩
      · exact List.pairwise_map.2 ((List.pairwise_map.1 o4.1).imp fun h => .inr ⟨rfl, h⟩)
      · intro k' v c
        have hmem : (k', (v, c)) ∈ out.map (fun p => (k, p)) ↔ k' = k ∧ (v, c) ∈ out := by
          rw [List.mem_map]
          constructor
          · rintro ⟨p, hp, e⟩; rw [Prod.mk.injEq] at e; exact ⟨e.1.symm, e.2 ▸ hp⟩
          · rintro ⟨rfl, hp⟩; exact ⟨_, hp, rfl⟩
        rw [hmem, o4.mem_iff]
        have hcount : (∀ b ∈ q.at d.positions.2.1, v = b) → ((matching ps (q.at d.positions.2.1) none).filter fun p => p.1 = v).length = countOf ts d k v := by
          intro hb
          rw [← count_pairs hn hm o2 o3 v]
          unfold matching
          rw [List.filter_filter]
          congr 1
          refine List.filter_congr fun p _ => ?_
          cases hx : q.at d.positions.2.1 with
          | none => simp
          | some b =>
            have hvb : v = b := hb b hx
            by_cases hp : p.1 = v
            · simp [hp, hvb]
            · simp [hp]
        constructor
        · rintro ⟨rfl, e1, e2⟩
          have hb : ∀ b ∈ q.at d.positions.2.1, v = b := by
            intro b hb
            obtain ⟨p, hp⟩ := List.exists_mem_of_length_pos (show 0 < ((matching ps (q.at d.positions.2.1) none).filter fun p => p.1 = v).length by omega)
            obtain ⟨hp, e⟩ := List.mem_filter.1 hp
            have := (List.mem_filter.1 hp).2
            rw [hb] at this
            simp at this e
            omega
          exact ⟨by rintro a ⟨⟩; rfl, hb, by rw [e1, hcount hb], e2⟩
        · rintro ⟨e0, hb, e1, e2⟩
          obtain rfl := e0 k rfl
          exact ⟨rfl, by rw [e1, hcount hb], e2⟩
    | none =>
      refine ⟨[], ⟨_, rfl, .done rfl⟩, .nil, fun k' v c => ⟨fun h => absurd h List.not_mem_nil, ?_⟩⟩
      rintro ⟨e0, -, e1, e2⟩
      obtain rfl := e0 k rfl
      have hpos : 0 < countOf ts d k' v := by omega
      obtain ⟨t, ht⟩ := List.exists_mem_of_length_pos hpos
      obtain ⟨ht, e3⟩ := List.mem_filter.1 ht
      simp only [decide_eq_true_eq] at e3
      have ht := (hm t).1 ht
      by_cases h3 : d.idx ≥ 3
      · obtain ⟨d', a1, a2, -⟩ := d.exists_partner h3
        have hp : kb.present (d.idx - 3) = true := by
          rcases hd with hp | hp
          · exact h.partner _ h3 hp
          · exact hp.2
        have hlt : d.idx - 3 < 3 := by cases d <;> simp [Order.idx]
        obtain ⟨cs, e, q1, -⟩ := h.complete d' (by rw [a1]; exact hlt) (by rw [a1]; exact hp) t ht
        rw [← a2, e3.1, hc] at q1
        cases q1
      · have hp : kb.present d.idx = true := by
          rcases hd with hp | hp
          · exact hp
          · exact absurd hp.1 h3
        obtain ⟨cs, e, q1, -⟩ := h.complete d (by omega) hp t ht
        rw [e3.1, hc] at q1
        cases q1
  | none =>
    have hg : g ≠ [] := hg.resolve_right (by simp [hk])
    have hx : q.at d.positions.2.1 = none := by
      cases hx : q.at d.positions.2.1 with
      | none => rfl
      | some v => rw [hx, hk] at h1; simp at h1
    obtain ⟨s, out, o1, o2, o3, o4⟩ := h.scanD hE hf d hd hg
    have harg : ¬ argOfPos (none : Option Int) ≥ 0 := by decide
    rw [if_neg harg, o1]
    refine ⟨out, ⟨_, rfl, o2⟩, o3, fun k v c => ?_⟩
    rw [o4, hx]
    constructor
    · rintro ⟨ps, p1, p2, p3, p4⟩
      exact ⟨by rintro a ⟨⟩, by rintro b ⟨⟩, by rw [p3, count_pairs hn hm p1 p2], p4⟩
    · rintro ⟨-, -, p3, p4⟩
      obtain ⟨ps, q1, q2⟩ := exists_sortedS ((g.filter fun t => d.key t = k).map d.pair)
      have hps : PairsOf g d k ps := by
        intro p
        rw [q2, List.mem_map]
        constructor
        · rintro ⟨t, ht, rfl⟩
          rw [List.mem_filter] at ht
          exact ⟨t, ht.1, by simpa using ht.2, rfl⟩
        · rintro ⟨t, h1, h2, h3⟩
          exact ⟨t, List.mem_filter.2 ⟨h1, by simpa using h2⟩, h3⟩
      exact ⟨ps, q1, hps, by rw [p3, count_pairs hn hm q1 hps], p4⟩

/-- A stored graph that is not empty is answered in every order that can be read. -/
theorem answersD_stored {kb : KB} {g : List Triple} (h : Loaded kb g) {E : Env} (hE : SortsPairs E.sortP) (hf : g.length < E.fuel) (hg : g ≠ []) (hr : ∀ d, kb.Reads d)
    {ts : List Triple} (hn : ts.Nodup) (hm : ∀ t, t ∈ ts ↔ t ∈ g) : AnswersD (kb.getIteratorD E) ts := by
  intro q d hq h1 h2
  obtain ⟨out, ⟨o, a, b⟩, c, e⟩ := C88_stored_partial kb g h E hE hf ts hn hm q hq d (hr d) h1 h2 (.inl hg)
  exact ⟨out, o, a, b, c, e⟩

/-! ## The hypotheses are met -/

/-- The triples of `exGraph`, each once. -/
def exTriples : List Triple := [⟨7, 1, 300⟩, ⟨2, 1, 70000⟩, ⟨2, 4, 7⟩, ⟨7, 1, 2⟩]

theorem exAnswersD : ∃ kb : KB, ∃ E : Env, Join.Answers (kb.getIterator E) (· ∈ exGraph.map T3.triple) ∧ AnswersD (kb.getIteratorD E) exTriples := by
  obtain ⟨m, M, hM⟩ := exists_mapped fun i => (exConfig.ins exGraph i).store.files
  have hr : ∀ d, (exConfig.open' exGraph m M).Reads d := by
    intro d
    unfold KB.Reads
    show permsOf 6 _ = true ∨ _ ∧ permsOf 6 _ = true
    cases d <;> decide
  have hl := exOk.loaded (fun i hi => hM i hi)
  exact ⟨_, ⟨isort, msort, 100⟩, Join.answers_stored hl (E := ⟨isort, msort, 100⟩) isort_sorts (show 5 < 100 by omega) (by decide) hr,
    answersD_stored hl (E := ⟨isort, msort, 100⟩) isort_sorts (show 5 < 100 by omega) (by decide) hr (by decide) (by
      have h1 : ∀ t ∈ exTriples, t ∈ exGraph.map T3.triple := by decide
      have h2 : ∀ t ∈ exGraph.map T3.triple, t ∈ exTriples := by decide
      exact fun t => ⟨h1 t, h2 t⟩)⟩

/-- Subjects of predicate 1 in the order predicate, subject, object: subject 7 has two objects. -/
example : ∃ (kb : KB) (E : Env) (out : List Row3), (kb.getIteratorD E Order.pso.idx (-1) 1 (-1)).Returns out ∧ (1, (7, 2)) ∈ out ∧ (1, (2, 1)) ∈ out := by
  obtain ⟨kb, E, -, h⟩ := exAnswersD
  obtain ⟨out, o, h1, h2, -, h3⟩ := h ⟨none, some 1, none⟩ .pso (by intro x v hv; cases x <;> cases hv; decide) (by simp [Pattern.at, Order.positions]) rfl
  exact ⟨kb, E, out, ⟨o, h1, h2⟩, (h3 1 7 2).2 ⟨by rintro a ⟨⟩; rfl, by rintro b ⟨⟩, by decide, by decide⟩, (h3 1 2 1).2 ⟨by rintro a ⟨⟩; rfl, by rintro b ⟨⟩, by decide, by decide⟩⟩

end Trident
