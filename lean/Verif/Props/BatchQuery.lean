import Verif.Ml.BatchQueryProofs
import Verif.Props.Batch
/-!
# Property C110: batches of the triples that match a query

`BatchCreator::start(s, p, o)` of /repo/src/trident/ml/batch.cpp.
-/
namespace Trident.Batch

/-- The triple has the constants that the query gives. -/
def answers (s p o : Option Nat) (t : Triple) : Bool :=
  (match s with | none => true | some x => t.1 == x) && ((match p with | none => true | some x => t.2.1 == x) && (match o with | none => true | some x => t.2.2 == x))

/-- The terms of a triple in the order of an index. -/
def Order.key : Order → Triple → Nat × Nat × Nat
  | .spo, (s, p, o) => (s, p, o)
  | .sop, (s, p, o) => (s, o, p)
  | .pos, (s, p, o) => (p, o, s)
  | .pso, (s, p, o) => (p, s, o)
  | .osp, (s, p, o) => (o, s, p)
  | .ops, (s, p, o) => (o, p, s)

/-- The order of keys. -/
def KeyLt (a b : Nat × Nat × Nat) : Prop := a.1 < b.1 ∨ (a.1 = b.1 ∧ (a.2.1 < b.2.1 ∨ (a.2.1 = b.2.1 ∧ a.2.2 < b.2.2)))

instance (a b : Nat × Nat × Nat) : Decidable (KeyLt a b) := by unfold KeyLt; infer_instance

/-- A creator after `start(s, p, o)` on a graph whose predicates have the ids of entities.  The graph is in the order of the index for the query. -/
structure Asked (c : Creator) (graph : List Triple) (s p o : Option Nat) : Prop where
  raw : c.raw = startFile none none graph
  order : ∃ l, queryIndices c.raw s p o = some l ∧ c.indices.Perm l
  first : c.currentidx = 0
  size : 0 < c.batchsize
  fits : ∀ t ∈ graph, Fits t
  sorted : graph.Pairwise fun t u => KeyLt ((indexFor s p o).key t) ((indexFor s p o).key u)
  room : Room graph.length

theorem sortedBy_of {order : Order} {ts : List Triple} (h : ts.Pairwise fun t u => KeyLt (order.key t) (order.key u)) : SortedBy order ts := by
  intro i j t u hij hi hj
  obtain ⟨h1, e1⟩ := List.getElem?_eq_some_iff.1 hi
  obtain ⟨h2, e2⟩ := List.getElem?_eq_some_iff.1 hj
  have := List.pairwise_iff_getElem.1 h i j h1 h2 hij
  rw [e1, e2] at this
  obtain ⟨a, b, d⟩ := t
  obtain ⟨a', b', d'⟩ := u
  cases order <;> simpa [KeyLt, Order.key, Order.offsets, fld] using this

theorem answers_iff (order : Order) (s p o : Option Nat) (t : Triple) :
    answers s p o t = true ↔ ∀ off ∈ [order.offsets.1, order.offsets.2.1, order.offsets.2.2], ∀ x, want s p o off = some x → fld off t = x := by
  obtain ⟨a, b, d⟩ := t
  rcases s with _ | s <;> rcases p with _ | p <;> rcases o with _ | o <;> cases order <;> simp [answers, Order.offsets, want, fld] <;> omega

theorem want_first {s p o : Option Nat} (h : s ≠ none ∨ p ≠ none ∨ o ≠ none) : ∃ x, want s p o (indexFor s p o).offsets.1 = some x := by
  rcases s with _ | s <;> rcases p with _ | p <;> rcases o with _ | o <;> simp_all [indexFor, want, Order.offsets]

theorem want_next (s p o : Option Nat) : want s p o (indexFor s p o).offsets.2.1 = none → want s p o (indexFor s p o).offsets.2.2 = none := by
  rcases s with _ | s <;> rcases p with _ | p <;> rcases o with _ | o <;> simp [indexFor, want, Order.offsets]

/-- A constant is missing. -/
def Open (s p o : Option Nat) : Prop := s = none ∨ p = none ∨ o = none

theorem want_open {s p o : Option Nat} (h : Open s p o) : want s p o (indexFor s p o).offsets.2.2 = none := by
  unfold Open at h
  rcases s with _ | s <;> rcases p with _ | p <;> rcases o with _ | o <;> simp_all [indexFor, want, Order.offsets]

theorem indices_eq {graph : List Triple} {s p o : Option Nat} (hs : SortedBy (indexFor s p o) graph) (hf : ∀ t ∈ graph, Fits t) (hr : Room graph.length)
    (hex : (∃ t ∈ graph, answers s p o t = true) ∨ Open s p o) :
    ∃ l, queryIndices (fileOf graph) s p o = some l ∧ l.Nodup ∧ ∀ i, i ∈ l ↔ ∃ t, graph[i]? = some t ∧ answers s p o t = true := by
  by_cases hq : s ≠ none ∨ p ≠ none ∨ o ≠ none
  · obtain ⟨x1, h1⟩ := want_first hq
    have hterm : ∀ {i t}, graph[i]? = some t → ((∀ off ∈ [(indexFor s p o).offsets.1, (indexFor s p o).offsets.2.1, (indexFor s p o).offsets.2.2], ∀ x, want s p o off = some x → termAt graph off i = x) ↔ answers s p o t = true) := by
      intro i t hi
      rw [answers_iff (indexFor s p o)]
      simp only [termAt, hi]
    obtain ⟨a, b, e, h⟩ := queryRange_eq hs hf hr h1 (want_next s p o) (by
      rcases hex with ⟨t, ht, ha⟩ | hone
      · obtain ⟨i, hi, he⟩ := List.getElem_of_mem ht
        exact Or.inl ⟨i, hi, (hterm (by rw [List.getElem?_eq_getElem hi, he])).2 ha⟩
      · exact Or.inr (want_open hone))
    refine ⟨_, by rw [queryIndices, e]; rfl, List.nodup_range', fun i => ?_⟩
    rw [List.mem_range'_1]
    have : (a ≤ i ∧ i < a + (b - a)) ↔ (a ≤ i ∧ i < b) := by omega
    rw [this, h i]
    constructor
    · rintro ⟨g1, g2⟩
      exact ⟨graph[i], List.getElem?_eq_getElem g1, (hterm (List.getElem?_eq_getElem g1)).1 g2⟩
    · rintro ⟨t, g1, g2⟩
      exact ⟨(List.getElem?_eq_some_iff.1 g1).1, (hterm g1).2 g2⟩
  · obtain ⟨rfl, rfl, rfl⟩ : s = none ∧ p = none ∧ o = none := by
      refine ⟨?_, ?_, ?_⟩
      · rcases s with _ | s; rfl; exact absurd (Or.inl (by simp)) hq
      · rcases p with _ | s; rfl; exact absurd (Or.inr (Or.inl (by simp))) hq
      · rcases o with _ | s; rfl; exact absurd (Or.inr (Or.inr (by simp))) hq
    refine ⟨List.range' 0 graph.length, by simp [queryIndices, queryRange, indexFor, Order.offsets, want, file_records], List.nodup_range', fun i => ?_⟩
    rw [List.mem_range'_1]
    refine ⟨fun g => ⟨graph[i]'(by omega), List.getElem?_eq_getElem (by omega), by simp [answers]⟩, fun ⟨t, g, _⟩ => ?_⟩
    have := (List.getElem?_eq_some_iff.1 g).1
    omega

theorem filter_positions (f : Triple → Bool) (ts : List Triple) : (((List.range ts.length).filter fun i => f (ts.getD i (0, 0, 0))).map fun i => ts.getD i (0, 0, 0)) = ts.filter f := by
  have hts : (List.range ts.length).map (fun i => ts.getD i (0, 0, 0)) = ts := List.ext_getElem (by simp) fun i h1 h2 => by simp [h2]
  conv => rhs; rw [← hts]
  rw [List.filter_map]; rfl

/-! ## C110 -/

/-- **C110 (query, part).** If the query does not give all three constants, or if it gives a triple of the graph, then the batches of an epoch have each triple with the constants of the query exactly once,
and no others.  Missing: triples that are not in the graph (`C110_absent_violated`), graphs with numbered predicates (`C110_predicate_violated`), and files without room for one record after the last
(`C110_page_violated`). -/
theorem C110_query_partial {c : Creator} {graph : List Triple} {s p o : Option Nat} (h : Asked c graph s p o) (hf : c.filter = none)
    (hex : (∃ t ∈ graph, answers s p o t = true) ∨ Open s p o) :
    (∃ bs, Epoch c bs) ∧ ∀ bs, Epoch c bs → bs.flatten.Perm (graph.filter (answers s p o)) ∧ (∀ b ∈ bs, b.length ≤ c.batchsize) ∧ ∀ b ∈ bs.dropLast, b.length = c.batchsize := by
  have hraw : c.raw = fileOf graph := by
    rw [h.raw, startFile_none]
    congr 1
    exact List.map_id' _
  obtain ⟨l, e, hn, hm⟩ := indices_eq (sortedBy_of h.sorted) h.fits h.room hex
  obtain ⟨l', e', hp⟩ := h.order
  rw [hraw, e] at e'
  injection e' with e'
  subst e'
  have hin : ∀ i ∈ c.indices, i < graph.length := fun i hi => by
    obtain ⟨t, g, _⟩ := (hm i).1 ((hp.mem_iff).1 hi)
    exact (List.getElem?_eq_some_iff.1 g).1
  have hruns : Runs c fun i => graph.getD i (0, 0, 0) := by
    refine ⟨h.size, fun i hi => ?_⟩
    have hi' := hin i hi
    have hv : graph[i]? = some (graph.getD i (0, 0, 0)) := by simp [List.getD, hi']
    rw [hraw]
    refine getAt_file (h.fits _ (List.mem_of_getElem? hv)) hv ?_
    have := h.room.page
    rw [length_file]; omega
  have hc : c.currentidx ≤ c.indices.length := by rw [h.first]; omega
  refine ⟨epoch_ends hruns hc, fun bs hb => ?_⟩
  obtain ⟨h1, h2, h3⟩ := epoch_eq hruns hc hb
  refine ⟨?_, h2, h3⟩
  rw [h1, h.first, List.drop_zero, List.filter_eq_self.2 fun t _ => by simp [Creator.uses, hf], ← filter_positions]
  refine List.Perm.map _ (hp.trans ?_)
  refine (List.perm_ext_iff_of_nodup hn (List.Pairwise.filter _ List.nodup_range)).2 fun i => ?_
  rw [hm i, List.mem_filter, List.mem_range]
  constructor
  · rintro ⟨t, g1, g2⟩
    obtain ⟨g3, g4⟩ := List.getElem?_eq_some_iff.1 g1
    exact ⟨g3, by simpa [List.getD, g1] using g2⟩
  · rintro ⟨g1, g2⟩
    exact ⟨graph[i], List.getElem?_eq_getElem g1, by simpa [List.getD, g1] using g2⟩

/-- A graph in the order of subject, predicate, object. -/
def exAsk : List Triple := [(1, 5, 2), (1, 5, 9), (1, 6, 3), (2, 7, 1), (4, 5, 5)]

/-- **C110 (absent triple, violated).** The triple (1, 7, 1) is not in the graph, but the query for it returns a triple: its subject is 2. -/
theorem C110_absent_violated : ∃ c, Asked c exAsk (some 1) (some 7) (some 1) ∧ c.filter = none ∧ exAsk.filter (answers (some 1) (some 7) (some 1)) = [] ∧ (getBatch c).map (·.1) = some [(2, 7, 1)] := by
  refine ⟨⟨startFile none none exAsk, 2, none, [3], 0⟩, ⟨rfl, ⟨[3], by decide +kernel, List.Perm.refl _⟩, rfl, by decide, by unfold Fits; decide +kernel, by decide +kernel, by unfold Room; decide⟩, rfl, by decide +kernel, by decide +kernel⟩

/-- **C110 (numbered predicates, violated).** If predicates have ids of their own, the file has their positions: the query for the predicate 7, which two triples have, returns nothing. -/
theorem C110_predicate_violated : ∃ (graph : List Triple) (preds : List Nat), (graph.filter (answers none (some 7) none)).length = 2 ∧ queryIndices (startFile none (some preds) graph) none (some 7) none = some [] :=
  ⟨[(1, 7, 2), (5, 7, 3), (3, 9, 4)], [7, 9], by decide +kernel, by decide +kernel⟩

/-- **C110 (page, violated).** If the file fills its last page up to fewer than eight bytes, then the search for a subject above all subjects reads behind the page. -/
theorem C110_page_violated {graph : List Triple} (hf : ∀ t ∈ graph, Fits t) (h : 15 * graph.length % 4096 = 0 ∨ 4088 < 15 * graph.length % 4096) {x : Nat} (hx : ∀ t ∈ graph, t.1 < x) :
    queryIndices (startFile none none graph) (some x) none none = none := by
  have hraw : startFile none none graph = fileOf graph := by
    rw [startFile_none]
    congr 1
    exact List.map_id' _
  have hpg : ∀ k, k ≤ 15 * graph.length → k ≤ pageEnd (15 * graph.length) := fun k hk => by unfold pageEnd; omega
  have hend : pageEnd (15 * graph.length) < 15 * graph.length + 8 := by
    unfold pageEnd
    generalize 15 * graph.length = N at h ⊢
    have hd := Nat.div_add_mod N 4096
    rcases h with h | h
    · have hq : (N + 4095) / 4096 = N / 4096 := by omega
      rw [hq]; omega
    · have hq : (N + 4095) / 4096 = N / 4096 + 1 := by omega
      rw [hq]; omega
  have hs : findFirst (fileOf graph) 0 x 0 graph.length = none := by
    refine search_behind (fun i hi => ?_) ?_ _ _ _ _ (Nat.le_refl _) (Nat.zero_le _)
    · refine ⟨graph[i].1, ?_, hx _ (List.getElem_mem hi)⟩
      refine read_at (rest := put5 graph[i].2.1 ++ (put5 graph[i].2.2 ++ fileOf (graph.drop (i + 1)))) ?_ (hf _ (List.getElem_mem hi)).1 (by rw [length_file]; exact hpg _ (by omega))
      rw [Nat.add_zero, drop_file (by omega), List.drop_eq_getElem_cons hi]
      show record graph[i] ++ fileOf (graph.drop (i + 1)) = _
      simp [record]
    · rw [read5, if_neg]
      rw [length_file]; omega
  rw [hraw, queryIndices, queryRange]
  simp only [indexFor, Option.isSome, if_true, Bool.false_eq_true, if_false, Order.offsets, want, file_records, narrow, hs]
  rfl

/-! ## The theorems are about something -/

/-- A creator for the subject 1 and the predicate 5. -/
theorem exAsked : Asked ⟨startFile none none exAsk, 1, none, [1, 0], 0⟩ exAsk (some 1) (some 5) none :=
  ⟨rfl, ⟨[0, 1], by decide +kernel, by decide⟩, rfl, by decide, by unfold Fits; decide +kernel, by decide +kernel, by unfold Room; decide⟩

example : ∃ bs, Epoch ⟨startFile none none exAsk, 1, none, [1, 0], 0⟩ bs ∧ bs.flatten.Perm [(1, 5, 2), (1, 5, 9)] := by
  obtain ⟨⟨bs, h⟩, h2⟩ := C110_query_partial exAsked rfl (Or.inr (Or.inr (Or.inr rfl)))
  exact ⟨bs, h, (h2 bs h).1⟩

/-- A query for one triple. -/
example : ∃ bs, Epoch ⟨startFile none none exAsk, 3, none, [2], 0⟩ bs ∧ bs.flatten.Perm [(1, 6, 3)] := by
  obtain ⟨⟨bs, h⟩, h2⟩ := C110_query_partial (c := ⟨startFile none none exAsk, 3, none, [2], 0⟩) (graph := exAsk) (s := some 1) (p := some 6) (o := some 3)
    ⟨rfl, ⟨[2], by decide +kernel, List.Perm.refl _⟩, rfl, by decide, by unfold Fits; decide +kernel, by decide +kernel, by unfold Room; decide⟩ rfl (Or.inl ⟨(1, 6, 3), by decide, by decide⟩)
  exact ⟨bs, h, (h2 bs h).1⟩

/-- Two constants that no triple has together: nothing is returned, although the next record has the second. -/
example : queryIndices (startFile none none exAsk) (some 1) (some 7) none = some [] := by decide +kernel

/-- A graph with 4096 triples and subjects below 5000. -/
example (graph : List Triple) (h : graph.length = 4096) (hf : ∀ t ∈ graph, Fits t) (hs : ∀ t ∈ graph, t.1 < 5000) : queryIndices (startFile none none graph) (some 5000) none none = none :=
  C110_page_violated hf (Or.inl (by rw [h])) hs

end Trident.Batch
