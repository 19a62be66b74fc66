import Verif.Update.Diff1Proofs
/-!
# Properties C112 and C113: updates with one column

`DiffIndex1` of /repo/src/trident/kb/diffindex1.cpp.
-/
namespace Trident.Diff1
open Classical

/-- The arguments of `createDiffIndex`: sorted values for one field, ids for the other fields.  The values are below 2^31, or there is one from 2^32 on. -/
structure Update (t : T3) (vs : List Nat) (pos : Nat) : Prop where
  hole : Hole t pos
  sorted : vs.Pairwise (· < ·)
  range : (∀ v ∈ vs, v < 2147483648) ∨ ((∃ v ∈ vs, 4294967296 ≤ v) ∧ ∀ v ∈ vs, v < 9223372036854775808)

/-- A pair of terms is in the store, in the order of an index. -/
def inStore (K : List T3) (idx : Nat) (a b : Int) : Prop := ∃ u ∈ K, (inOrder idx u).1 = a ∧ (inOrder idx u).2.1 = b

/-- The store answers for its triples. -/
structure Serves (kb : Kb) (K : List T3) : Prop where
  keys : ∀ f < 3, (kb.keys f).Pairwise (· < ·) ∧ ∀ v : Nat, v ∈ kb.keys f ↔ ∃ u ∈ K, field f u = v
  exist : ∀ f < 3, ∀ x, kb.existKey f x = true ↔ ∃ u ∈ K, field f u = x
  seconds : ∀ idx < 6, ∀ a, (kb.seconds idx a).Pairwise (· < ·) ∧ ∀ v : Nat, v ∈ kb.seconds idx a ↔ inStore K idx a v
  pair : ∀ idx < 6, ∀ a b, kb.pair idx a b = true ↔ inStore K idx a b

theorem Update.lt {t : T3} {vs : List Nat} {pos : Nat} (h : Update t vs pos) : pos < 3 := by
  rcases h.hole with ⟨rfl, _⟩ | ⟨rfl, _⟩ | ⟨rfl, _⟩ <;> decide

/-- What `create` stores. -/
theorem create_parts {kb : Kb} {t : T3} {vs : List Nat} {pos : Nat} {ix : Index} (hu : Update t vs pos) (h : create kb t vs pos = some ix) :
    ix.values = vs.map (fun v : Nat => (v : Int)) ∧ ix.size = vs.length ∧ ix.triple = t ∧ ix.posValues = pos := by
  have hv : ∀ last, vs.getLast? = some last → vs.map (stored (width last)) = vs.map (fun v : Nat => (v : Int)) := by
    intro last hl
    refine List.map_congr_left fun v hv => ?_
    have hle : v ≤ last := by
      obtain ⟨i, hi, rfl⟩ := List.getElem_of_mem hv
      rw [List.getLast?_eq_getElem?] at hl
      obtain ⟨hj, rfl⟩ := List.getElem?_eq_some_iff.1 hl
      rcases Nat.eq_or_lt_of_le (show i ≤ vs.length - 1 by omega) with e | g
      · simp only [e]; exact Nat.le_refl _
      · exact Nat.le_of_lt (List.pairwise_iff_getElem.1 hu.sorted i _ hi hj g)
    have hlast := List.mem_of_getLast? hl
    rcases hu.range with g | ⟨⟨w, hw, hw'⟩, g⟩
    · have h1 := g v hv
      have h2 := g last hlast
      have e : width last = 4 := by rw [width, if_pos (by omega)]
      rw [e, stored, if_pos rfl, Nat.mod_eq_of_lt (by omega), if_pos h1]
    · have h1 := g v hv
      have hwl : w ≤ last := by
        obtain ⟨i, hi, rfl⟩ := List.getElem_of_mem hw
        rw [List.getLast?_eq_getElem?] at hl
        obtain ⟨hj, rfl⟩ := List.getElem?_eq_some_iff.1 hl
        rcases Nat.eq_or_lt_of_le (show i ≤ vs.length - 1 by omega) with e | g
        · simp only [e]; exact Nat.le_refl _
        · exact Nat.le_of_lt (List.pairwise_iff_getElem.1 hu.sorted i _ hi hj g)
      have e : width last = 8 := by rw [width, if_neg (by omega)]
      rw [e, stored, if_neg (by decide), Nat.mod_eq_of_lt (by omega), if_pos h1]
  simp only [create] at h
  split at h
  · cases h
  · rename_i last hl
    have := hv last hl
    split at h
    · injection h with h; subst h; exact ⟨this, rfl, rfl, rfl⟩
    · split at h
      · injection h with h; subst h; exact ⟨this, rfl, rfl, rfl⟩
      · injection h with h; subst h; exact ⟨this, rfl, rfl, rfl⟩

theorem sorted_ints {vs : List Nat} (h : vs.Pairwise (· < ·)) : (vs.map fun v : Nat => (v : Int)).Pairwise (· < ·) := by
  rw [List.pairwise_map]
  exact h.imp fun h => Int.ofNat_lt.2 h

/-! ## C112 -/

/-- **C112 (patterns, part).** For each index and each pattern, the iterator returns exactly the triples of the update with the terms of the pattern, each once, in the order of the index.
Missing: values from 2^31 on if all are below 2^32 (`C112_large_violated`), updates without values (`C112_empty_violated`). -/
theorem C112_iterator_partial {kb : Kb} {t : T3} {vs : List Nat} {pos : Nat} {ix : Index} (hu : Update t vs pos) (h : create kb t vs pos = some ix) (old : Bool) {idx : Nat} (hi : idx < 6) {first second third : Int}
    (h1 : -1 ≤ first) (h2 : -1 ≤ second) (h3 : -1 ≤ third) :
    triples (ix.getIterator old idx first second third) = ((added t vs pos).map (inOrder idx)).filter (agrees first second third) := by
  obtain ⟨e1, e2, e3, e4⟩ := create_parts hu h
  rw [getIterator_eq (q := place idx pos) (by rw [e1]; exact sorted_ints hu.sorted) (by rw [e1, e2, List.length_map]) old (by rw [e3]; exact hole_inOrder hi hu.hole) h1 h2 h3, e1, e3, added, List.map_map, List.map_map]
  congr 1
  exact List.map_congr_left fun v _ => (inOrder_withValue hi hu.lt t v).symm

/-- **C112 (files).** The index can be made for each update that has a value. -/
theorem C112_create (kb : Kb) (t : T3) {vs : List Nat} (h : vs ≠ []) (pos : Nat) : ∃ ix, create kb t vs pos = some ix := by
  unfold create
  rcases e : vs.getLast? with _ | last
  · exact absurd (List.getLast?_eq_none_iff.1 e) h
  · simp only
    split
    · exact ⟨_, rfl⟩
    · split <;> exact ⟨_, rfl⟩

/-- The pairs of an iterator whose second column is ignored. -/
def pairs (r : Option Itr × Nat) : List (Int × Int) := match r.1 with
  | none => []
  | some it => it.ignoreSecondColumn.all.map fun u => (u.1, u.2.1)

theorem drain_ignored (it : Itr) (hn : it.noseccol = false) (hf : it.first = true) :
    it.ignoreSecondColumn.all = if it.posarray = 0 ∨ it.posarray = 1 then it.rest.map (withValue (it.key, it.v1, it.v2) it.posarray) else if it.rest = [] then [] else [(it.key, it.v1, it.v2)] := by
  obtain ⟨key, v1, v2, ns, fi, rest, pa, ne⟩ := it
  simp only at hn hf
  subst hn; subst hf
  simp only [Itr.ignoreSecondColumn, Bool.true_eq_false, false_and, if_false, Itr.all]
  by_cases hp : pa = 0 ∨ pa = 1
  · rw [if_pos hp]
    have key' : ∀ (rest : List Int) key v1 fi, Itr.drain rest.length ⟨key, v1, v2, true, fi, rest, pa, ne⟩ = rest.map (withValue (key, v1, v2) pa) := by
      intro rest
      induction rest with
      | nil => intros; rfl
      | cons x l ih =>
        intro key v1 fi
        rw [List.length_cons, Itr.drain, if_neg (by simp), List.map_cons]
        unfold Itr.next
        rcases hp with rfl | rfl
        · simp only [if_true]
          rw [ih]
          simp [withValue]
        · simp only [if_true, Nat.one_ne_zero, if_false]
          rw [ih]
          simp [withValue]
    exact key' rest key v1 true
  · rw [if_neg hp]
    have h0 : pa ≠ 0 := fun e => hp (Or.inl e)
    have h1 : pa ≠ 1 := fun e => hp (Or.inr e)
    cases rest with
    | nil => rfl
    | cons x l =>
      rw [List.length_cons, Itr.drain, if_neg (by simp)]
      unfold Itr.next
      simp only [h0, h1, if_false, if_true]
      cases l <;> simp [Itr.drain]

theorem branch_first {ix : Index} {old : Bool} {t : T3} {idx q : Nat} {x first second : Int} {it : Itr} {n : Nat} (h : ix.branch old t idx q x first second = (some it, n)) :
    it.noseccol = false ∧ it.first = old ∧ it.posarray = q ∧ (it.key, it.v1, it.v2) = t := by
  unfold Index.branch at h
  split at h
  · split at h
    · injection h with h _; cases h
    · injection h with h _; injection h with h; subst h; exact ⟨rfl, rfl, rfl, rfl⟩
  · injection h with h _; injection h with h; subst h; exact ⟨rfl, rfl, rfl, rfl⟩

theorem withValue_pair {t : T3} {q : Nat} (hq : q = 0 ∨ q = 1) {v w : Int} (h : ((withValue t q v).1, (withValue t q v).2.1) = ((withValue t q w).1, (withValue t q w).2.1)) : v = w := by
  rcases hq with rfl | rfl <;> simpa [withValue] using h

theorem pairs_branch {ix : Index} (hs : ix.values.Pairwise (· < ·)) (hl : ix.size = ix.values.length) {t : T3} {idx q : Nat} {x first second : Int} (hx : -1 ≤ x) (hq : q < 3) :
    (pairs (ix.branch true t idx q x first second)).Nodup ∧ ∀ a, a ∈ pairs (ix.branch true t idx q x first second) ↔ ∃ u ∈ triples (ix.branch true t idx q x first second), a = (u.1, u.2.1) := by
  have hb := branch_eq hs hl true t idx q hx first second
  rcases e : ix.branch true t idx q x first second with ⟨_ | it, n⟩
  · exact ⟨List.nodup_nil, fun a => by simp [pairs, triples]⟩
  · obtain ⟨e1, e2, e3, e4⟩ := branch_first e
    have ht : triples (some it, n) = it.rest.map (withValue t q) := by
      show it.all = _
      rw [drain_eq it e1, e3, e4]
    have hn : it.rest.Nodup := by
      unfold Index.branch at e
      split at e
      · split at e
        · injection e with e _; cases e
        · injection e with e _; injection e with e; subst e
          exact ((nodup_of_sorted hs).sublist (List.drop_sublist _ _)).sublist (List.take_sublist _ _)
      · injection e with e _; injection e with e; subst e
        exact nodup_of_sorted hs
    rw [ht]
    simp only [pairs]
    rw [drain_ignored it e1 e2, e3, e4]
    by_cases hq' : q = 0 ∨ q = 1
    · rw [if_pos hq']
      constructor
      · rw [List.map_map]
        exact List.Pairwise.map _ (fun a b hab h => hab (withValue_pair hq' h)) hn
      · intro a
        rw [List.mem_map]
        exact ⟨fun ⟨u, h1, h2⟩ => ⟨u, h1, h2.symm⟩, fun ⟨u, h1, h2⟩ => ⟨u, h1, h2.symm⟩⟩
    · rw [if_neg hq']
      have h2 : q = 2 := by omega
      subst h2
      by_cases hr : it.rest = []
      · rw [if_pos hr, hr]; exact ⟨by simp, by simp⟩
      · rw [if_neg hr]
        refine ⟨by simp, fun a => ?_⟩
        obtain ⟨y, hy⟩ := List.exists_mem_of_ne_nil _ hr
        constructor
        · intro ha
          refine ⟨withValue t 2 y, List.mem_map.2 ⟨y, hy, rfl⟩, ?_⟩
          simpa [withValue] using ha
        · rintro ⟨u, hu, rfl⟩
          obtain ⟨z, _, rfl⟩ := List.mem_map.1 hu
          simp [withValue]

/-- **C112 (pairs, part).** If the second column is ignored, then the iterator returns each pair of first and second terms of the matching triples exactly once, provided that the memory of the iterator
had 1 where its field `first` is.  Missing: otherwise (`C112_ignore_violated`), and as for `C112_iterator_partial`. -/
theorem C112_pairs_partial {kb : Kb} {t : T3} {vs : List Nat} {pos : Nat} {ix : Index} (hu : Update t vs pos) (h : create kb t vs pos = some ix) {idx : Nat} (hi : idx < 6) {first second third : Int}
    (h1 : -1 ≤ first) (h2 : -1 ≤ second) (h3 : -1 ≤ third) :
    (pairs (ix.getIterator true idx first second third)).Nodup ∧
      ∀ a, a ∈ pairs (ix.getIterator true idx first second third) ↔ ∃ u ∈ added t vs pos, agrees first second third (inOrder idx u) = true ∧ a = ((inOrder idx u).1, (inOrder idx u).2.1) := by
  obtain ⟨e1, e2, e3, e4⟩ := create_parts hu h
  have key : (pairs (ix.getIterator true idx first second third)).Nodup ∧ ∀ a, a ∈ pairs (ix.getIterator true idx first second third) ↔ ∃ u ∈ triples (ix.getIterator true idx first second third), a = (u.1, u.2.1) := by
    have hs : ix.values.Pairwise (· < ·) := by rw [e1]; exact sorted_ints hu.sorted
    have hl : ix.size = ix.values.length := by rw [e1, e2, List.length_map]
    have hnone : (pairs (none, 0)).Nodup ∧ ∀ a, a ∈ pairs (none, 0) ↔ ∃ u ∈ triples (none, 0), a = (u.1, u.2.1) := ⟨List.nodup_nil, fun a => by simp [pairs, triples]⟩
    unfold Index.getIterator
    simp only
    split
    · exact hnone
    · split
      · exact hnone
      · split
        · exact hnone
        · split
          · exact pairs_branch hs hl h1 (by decide)
          · split
            · exact pairs_branch hs hl h2 (by decide)
            · exact pairs_branch hs hl h3 (by decide)
  refine ⟨key.1, fun a => ?_⟩
  rw [key.2 a, C112_iterator_partial hu h true hi h1 h2 h3]
  constructor
  · rintro ⟨u, hm, rfl⟩
    obtain ⟨hm, ha⟩ := List.mem_filter.1 hm
    obtain ⟨w, hw, rfl⟩ := List.mem_map.1 hm
    exact ⟨w, hw, ha, rfl⟩
  · rintro ⟨w, hw, ha, rfl⟩
    exact ⟨_, List.mem_filter.2 ⟨List.mem_map.2 ⟨w, hw, rfl⟩, ha⟩, rfl⟩

/-- A store with three triples: (1, 2, 3), (1, 5, 6) and (4, 2, 7). -/
def exStore : List T3 := [(1, 2, 3), (1, 5, 6), (4, 2, 7)]

/-- What it answers. -/
def exKb : Kb where
  keys f := ([1, 2, 3, 4, 5, 6, 7] : List Nat).filter fun v => exStore.any fun u => field f u == v
  existKey f x := exStore.any fun u => field f u == x
  seconds idx a := ([1, 2, 3, 4, 5, 6, 7] : List Nat).filter fun v => exStore.any fun u => (inOrder idx u).1 == a && (inOrder idx u).2.1 == v
  pair idx a b := exStore.any fun u => (inOrder idx u).1 == a && (inOrder idx u).2.1 == b

/-- **C112 (second column, violated).** If the memory of an iterator has 0 where its field `first` is, as after an earlier use, then nothing is returned if the second column is ignored, although the update
has triples. -/
theorem C112_ignore_violated : ∃ t vs ix, Update t vs 2 ∧ create exKb t vs 2 = some ix ∧ triples (ix.getIterator false 0 1 (-1) (-1)) = [(1, 5, 8), (1, 5, 9)] ∧ pairs (ix.getIterator false 0 1 (-1) (-1)) = [] :=
  ⟨(1, 5, -1), [8, 9], _, ⟨by unfold Hole; decide, by decide, Or.inl (by decide)⟩, rfl, by decide, by decide⟩

/-- **C112 (large values, violated).** If the largest value is between 2^31 and 2^32, then it is read as a negative number. -/
theorem C112_large_violated : ∃ ix, create exKb (1, 5, -1) [8, 3000000000] 2 = some ix ∧ triples (ix.getIterator true 0 1 (-1) (-1)) = [(1, 5, 8), (1, 5, -1294967296)] :=
  ⟨_, rfl, by decide⟩

/-- **C112 (no values, violated).** An update without values cannot be made. -/
theorem C112_empty_violated (kb : Kb) (t : T3) (pos : Nat) : create kb t [] pos = none := rfl

/-! ## C113 -/

/-- A term is a key of the update in an index. -/
def IsKey (t : T3) (vs : List Nat) (pos idx : Nat) (x : Int) : Prop := ∃ u ∈ added t vs pos, (inOrder idx u).1 = x

theorem keyField_eq {idx : Nat} (hi : idx < 6) (u : T3) : field (keyField idx) u = (inOrder idx u).1 := by
  have hi' : idx = 0 ∨ idx = 1 ∨ idx = 2 ∨ idx = 3 ∨ idx = 4 ∨ idx = 5 := by omega
  rcases hi' with rfl | rfl | rfl | rfl | rfl | rfl <;> rfl

theorem keyField_place {idx pos : Nat} (hi : idx < 6) (hp : pos < 3) : pos = keyField idx ↔ place idx pos = 0 := by
  have hi' : idx = 0 ∨ idx = 1 ∨ idx = 2 ∨ idx = 3 ∨ idx = 4 ∨ idx = 5 := by omega
  have hp' : pos = 0 ∨ pos = 1 ∨ pos = 2 := by omega
  rcases hi' with rfl | rfl | rfl | rfl | rfl | rfl <;> rcases hp' with rfl | rfl | rfl <;> decide

theorem place_lt (idx pos : Nat) : place idx pos < 3 := by unfold place; split; decide; split <;> decide

/-- **C113 (cardinality, part).** `getCard` is the number of triples of the update with a key.  Missing: as for `C112_iterator_partial`. -/
theorem C113_card_partial {kb : Kb} {t : T3} {vs : List Nat} {pos : Nat} {ix : Index} (hu : Update t vs pos) (h : create kb t vs pos = some ix) {idx : Nat} (hi : idx < 6) (first : Int) :
    ix.getCard idx first = ((added t vs pos).filter fun u => decide ((inOrder idx u).1 = first)).length := by
  obtain ⟨e1, e2, e3, e4⟩ := create_parts hu h
  have hs : ix.values.Pairwise (· < ·) := by rw [e1]; exact sorted_ints hu.sorted
  have hl : ix.size = ix.values.length := by rw [e1, e2, List.length_map]
  have hrhs : ((added t vs pos).filter fun u => decide ((inOrder idx u).1 = first)).length = (ix.values.filter fun v => decide ((withValue (inOrder idx t) (place idx pos) v).1 = first)).length := by
    have : added t vs pos = ix.values.map (withValue t pos) := by rw [e1, List.map_map]; rfl
    rw [this, List.filter_map, List.length_map]
    congr 1
    refine List.filter_congr fun v _ => ?_
    simp only [Function.comp, inOrder_withValue hi hu.lt]
  rw [hrhs]
  unfold Index.getCard
  rw [e3, e4]
  by_cases hk : pos = keyField idx
  · rw [if_pos hk, (keyField_place hi hu.lt).1 hk]
    have : (ix.values.filter fun v => decide ((withValue (inOrder idx t) 0 v).1 = first)) = if first ∈ ix.values then [first] else [] := by
      rw [← filter_one (nodup_of_sorted hs) first]
      exact List.filter_congr fun v _ => by
        rw [Bool.eq_iff_iff, decide_eq_true_iff, decide_eq_true_iff]
        exact eq_comm
    rw [this]
    rcases posValue_spec hs hl first with ⟨g1, _, _, g2⟩ | ⟨g1, _, g2⟩
    · rw [g2, if_pos g1]; rfl
    · rw [g2, if_neg g1]; rfl
  · rw [if_neg hk, keyField_eq hi]
    have hne : place idx pos ≠ 0 := fun e => hk ((keyField_place hi hu.lt).2 e)
    have hw : ∀ v, (withValue (inOrder idx t) (place idx pos) v).1 = (inOrder idx t).1 := fun v => by
      unfold withValue
      rw [if_neg hne]
      split <;> rfl
    simp only [hw]
    by_cases hf : first = (inOrder idx t).1
    · rw [if_pos hf, hl, List.filter_eq_self.2 fun v _ => by simp [hf]]
    · rw [if_neg hf, List.filter_eq_nil_iff.2 fun v _ => by simp [eq_comm, hf]]; rfl

theorem sum_new {l vs : List Nat} (hl : l.Pairwise (· < ·)) (hv : vs.Pairwise (· < ·)) {P : Nat → Prop} (h : ∀ v, v ∈ l ↔ P v) : (outerJoin l vs).sum = (vs.filter fun v => decide (¬ P v)).length := by
  rw [outerJoin_eq hl hv, sum_flags]
  congr 1
  exact List.filter_congr fun v _ => by simp [h v]

theorem absent_eq {b : Bool} {P : Prop} (h : b = true ↔ P) : absent b = if P then 0 else 1 := by
  unfold absent
  simp only [h]

/-- The numbers of new pairs. -/
theorem create_unique {kb : Kb} {K : List T3} {t : T3} {vs : List Nat} {pos : Nat} {ix : Index} (hk : Serves kb K) (hu : Update t vs pos) (h : create kb t vs pos = some ix) {idx : Nat} (hi : idx < 6) :
    ix.nuniquefirstterms[idx]? = some (if place idx pos = 2 then (if inStore K idx (inOrder idx t).1 (inOrder idx t).2.1 then 0 else 1)
      else (vs.filter fun v : Nat => decide (¬ inStore K idx (withValue (inOrder idx t) (place idx pos) v).1 (withValue (inOrder idx t) (place idx pos) v).2.1)).length) := by
  obtain ⟨s, p, o⟩ := t
  have hi' : idx = 0 ∨ idx = 1 ∨ idx = 2 ∨ idx = 3 ∨ idx = 4 ∨ idx = 5 := by omega
  have hp' : pos = 0 ∨ pos = 1 ∨ pos = 2 := by have := hu.lt; omega
  have hsum : ∀ idx' < 6, ∀ a, ∀ P : Nat → Prop, (∀ v : Nat, inStore K idx' a v ↔ P v) → (outerJoin (kb.seconds idx' a) vs).sum = (vs.filter fun v => decide (¬ P v)).length :=
    fun idx' h' a P hP => sum_new (hk.seconds idx' h' a).1 hu.sorted fun v => ((hk.seconds idx' h' a).2 v).trans (hP v)
  have habs : ∀ idx' < 6, ∀ a b, ∀ P : Prop, (inStore K idx' a b ↔ P) → absent (kb.pair idx' a b) = if P then 0 else 1 :=
    fun idx' h' a b P hP => absent_eq ((hk.pair idx' h' a b).trans hP)
  simp only [create] at h
  split at h
  · cases h
  · rcases hp' with rfl | rfl | rfl
    all_goals
      simp only [if_true, if_false, Nat.one_ne_zero, Nat.reduceEqDiff] at h
      injection h with h
      subst h
      rcases hi' with rfl | rfl | rfl | rfl | rfl | rfl
      all_goals
        refine congrArg some ?_
        first
        | rw [if_pos (by decide)]
          refine habs _ (by decide) _ _ _ ?_
          constructor <;> rintro ⟨u, h1, h2, h3⟩ <;> exact ⟨u, h1, by first | exact h2 | exact h3, by first | exact h3 | exact h2⟩
        | rw [if_neg (by decide)]
          refine hsum _ (by decide) _ _ fun v => ?_
          constructor <;> rintro ⟨u, h1, h2, h3⟩ <;> exact ⟨u, h1, by first | exact h2 | exact h3, by first | exact h3 | exact h2⟩

/-- The pairs of the update that the store does not have. -/
def NewPair (K : List T3) (t : T3) (vs : List Nat) (pos idx : Nat) (a : Int × Int) : Prop := (∃ u ∈ added t vs pos, a = ((inOrder idx u).1, (inOrder idx u).2.1)) ∧ ¬ inStore K idx a.1 a.2

theorem unique_list {K : List T3} {t : T3} {vs : List Nat} {pos idx : Nat} (hu : Update t vs pos) (hne : vs ≠ []) (hi : idx < 6) :
    ∃ l : List (Int × Int), l.Nodup ∧ (∀ a, a ∈ l ↔ NewPair K t vs pos idx a) ∧
      l.length = if place idx pos = 2 then (if inStore K idx (inOrder idx t).1 (inOrder idx t).2.1 then 0 else 1)
        else (vs.filter fun v : Nat => decide (¬ inStore K idx (withValue (inOrder idx t) (place idx pos) v).1 (withValue (inOrder idx t) (place idx pos) v).2.1)).length := by
  have hadd : ∀ a, (∃ u ∈ added t vs pos, a = ((inOrder idx u).1, (inOrder idx u).2.1)) ↔ ∃ v ∈ vs, a = ((withValue (inOrder idx t) (place idx pos) (v : Int)).1, (withValue (inOrder idx t) (place idx pos) (v : Int)).2.1) := by
    intro a
    simp only [added, List.mem_map]
    constructor
    · rintro ⟨_, ⟨v, hv, rfl⟩, rfl⟩; exact ⟨v, hv, by rw [inOrder_withValue hi hu.lt]⟩
    · rintro ⟨v, hv, rfl⟩; exact ⟨_, ⟨v, hv, rfl⟩, by rw [inOrder_withValue hi hu.lt]⟩
  by_cases h2 : place idx pos = 2
  · rw [if_pos h2]
    have hw : ∀ v, ((withValue (inOrder idx t) 2 v).1, (withValue (inOrder idx t) 2 v).2.1) = ((inOrder idx t).1, (inOrder idx t).2.1) := fun v => rfl
    obtain ⟨v0, hv0⟩ := List.exists_mem_of_ne_nil _ hne
    by_cases hin : inStore K idx (inOrder idx t).1 (inOrder idx t).2.1
    · refine ⟨[], List.nodup_nil, fun a => ⟨fun g => absurd g List.not_mem_nil, fun ⟨g1, g2⟩ => ?_⟩, by simp [hin]⟩
      obtain ⟨v, _, rfl⟩ := (hadd a).1 g1
      rw [h2] at g2
      exact absurd hin g2
    · refine ⟨[((inOrder idx t).1, (inOrder idx t).2.1)], by simp, fun a => ?_, by simp [hin]⟩
      rw [List.mem_singleton]
      constructor
      · rintro rfl; exact ⟨(hadd _).2 ⟨v0, hv0, by rw [h2]; exact (hw _).symm⟩, hin⟩
      · rintro ⟨g1, _⟩
        obtain ⟨v, _, e⟩ := (hadd a).1 g1
        rw [e, h2]; rfl
  · rw [if_neg h2]
    have hq : place idx pos = 0 ∨ place idx pos = 1 := by have := place_lt idx pos; omega
    refine ⟨(vs.filter fun v : Nat => decide (¬ inStore K idx (withValue (inOrder idx t) (place idx pos) v).1 (withValue (inOrder idx t) (place idx pos) v).2.1)).map fun v : Nat =>
      ((withValue (inOrder idx t) (place idx pos) (v : Int)).1, (withValue (inOrder idx t) (place idx pos) (v : Int)).2.1), ?_, fun a => ?_, by rw [List.length_map]⟩
    · refine List.Pairwise.map _ (fun v w hvw e => hvw (Int.ofNat.inj (withValue_pair hq e))) (List.Pairwise.filter _ (hu.sorted.imp fun h => Nat.ne_of_lt h))
    · rw [List.mem_map]
      constructor
      · rintro ⟨v, hv, rfl⟩
        obtain ⟨g1, g2⟩ := List.mem_filter.1 hv
        exact ⟨(hadd _).2 ⟨v, g1, rfl⟩, of_decide_eq_true g2⟩
      · rintro ⟨g1, g2⟩
        obtain ⟨v, hv, rfl⟩ := (hadd a).1 g1
        exact ⟨v, List.mem_filter.2 ⟨hv, decide_eq_true g2⟩, rfl⟩

theorem create_ne {kb : Kb} {t : T3} {vs : List Nat} {pos : Nat} {ix : Index} (h : create kb t vs pos = some ix) : vs ≠ [] := by
  rintro rfl; cases h

/-- **C113 (new pairs, part).** For each index, `getUniqueNFirstTerms` is the number of pairs of first and second terms that the update has and the store does not.  Missing: as for `C112_iterator_partial`. -/
theorem C113_unique_partial {kb : Kb} {K : List T3} {t : T3} {vs : List Nat} {pos : Nat} {ix : Index} (hk : Serves kb K) (hu : Update t vs pos) (h : create kb t vs pos = some ix) {idx : Nat} (hi : idx < 6) :
    ∃ l : List (Int × Int), l.Nodup ∧ (∀ a, a ∈ l ↔ NewPair K t vs pos idx a) ∧ ix.getUniqueNFirstTerms idx = some l.length := by
  obtain ⟨l, h1, h2, h3⟩ := unique_list (K := K) hu (create_ne h) hi
  exact ⟨l, h1, h2, by rw [Index.getUniqueNFirstTerms, create_unique hk hu h hi, h3]⟩

/-- **C113 (pairs).** For each index, `getNFirstTables` is the number of pairs of first and second terms of the update. -/
theorem C113_tables {kb : Kb} {t : T3} {vs : List Nat} {pos : Nat} {ix : Index} (hu : Update t vs pos) (h : create kb t vs pos = some ix) {idx : Nat} (hi : idx < 6) :
    ∃ l : List (Int × Int), l.Nodup ∧ (∀ a, a ∈ l ↔ ∃ u ∈ added t vs pos, a = ((inOrder idx u).1, (inOrder idx u).2.1)) ∧ ix.getNFirstTables idx = some l.length := by
  obtain ⟨l, h1, h2, h3⟩ := unique_list (K := []) hu (create_ne h) hi
  refine ⟨l, h1, fun a => (h2 a).trans ⟨fun g => g.1, fun g => ⟨g, fun ⟨u, hu, _⟩ => absurd hu List.not_mem_nil⟩⟩, ?_⟩
  have hno : ∀ a b, ¬ inStore [] idx a b := fun a b ⟨u, hu, _⟩ => absurd hu List.not_mem_nil
  rw [h3, Index.getNFirstTables]
  have hf : (vs.filter fun v : Nat => decide (¬ inStore [] idx (withValue (inOrder idx t) (place idx pos) v).1 (withValue (inOrder idx t) (place idx pos) v).2.1)) = vs :=
    List.filter_eq_self.2 fun v _ => decide_eq_true (hno _ _)
  rw [hf, if_neg (hno _ _)]
  obtain ⟨s, p, o⟩ := t
  have hi' : idx = 0 ∨ idx = 1 ∨ idx = 2 ∨ idx = 3 ∨ idx = 4 ∨ idx = 5 := by omega
  have hp' : pos = 0 ∨ pos = 1 ∨ pos = 2 := by have := hu.lt; omega
  simp only [create] at h
  split at h
  · cases h
  · rcases hp' with rfl | rfl | rfl
    all_goals
      simp only [if_true, if_false, Nat.one_ne_zero, Nat.reduceEqDiff] at h
      injection h with h
      subst h
      rcases hi' with rfl | rfl | rfl | rfl | rfl | rfl <;> rfl

/-- Which list has the flags or the number of new pairs for an index. -/
theorem nFirst_flag {kb : Kb} {K : List T3} {t : T3} {vs : List Nat} {pos : Nat} {ix : Index} (hk : Serves kb K) (hu : Update t vs pos) (h : create kb t vs pos = some ix) {idx : Nat} (hi : idx < 6)
    (hq : place idx pos = 0) {first : Int} (h0 : 0 ≤ first) {i : Nat} (hl : i < vs.length) :
    ix.nFirst idx first (some i) (-1) = if inStore K idx (vs[i] : Int) (inOrder idx t).2.1 then 0 else 1 := by
  obtain ⟨s, p, o⟩ := t
  have hi' : idx = 0 ∨ idx = 1 ∨ idx = 2 ∨ idx = 3 ∨ idx = 4 ∨ idx = 5 := by omega
  have hp' : pos = 0 ∨ pos = 1 ∨ pos = 2 := by have := hu.lt; omega
  have hflag : ∀ idx' < 6, ∀ a, ∀ P : Prop, (inStore K idx' a (vs[i] : Int) ↔ P) → flag (outerJoin (kb.seconds idx' a) vs) (some i) = if P then 0 else 1 := by
    intro idx' h' a P hP
    rw [outerJoin_eq (hk.seconds idx' h' a).1 hu.sorted]
    have : vs[i] ∈ kb.seconds idx' a ↔ P := ((hk.seconds idx' h' a).2 _).trans hP
    simp [flag, List.getD, hl, this]
  have hne : first ≠ -1 := by omega
  simp only [create] at h
  split at h
  · cases h
  · rcases hp' with rfl | rfl | rfl
    all_goals
      simp only [if_true, if_false, Nat.one_ne_zero, Nat.reduceEqDiff] at h
      injection h with h
      subst h
      rcases hi' with rfl | rfl | rfl | rfl | rfl | rfl
      all_goals
        first
        | exact absurd hq (by decide)
        | simp only [Index.nFirst, hne, if_false, if_true, show ¬ ((-1 : Int) ≥ 0) by decide, Nat.one_ne_zero, Nat.reduceEqDiff]
          refine hflag _ (by decide) _ _ ?_
          constructor <;> rintro ⟨u, h1, h2, h3⟩ <;> exact ⟨u, h1, by first | exact h2 | exact h3, by first | exact h3 | exact h2⟩

theorem nFirst_number {kb : Kb} {t : T3} {vs : List Nat} {pos : Nat} {ix : Index} (hu : Update t vs pos) (h : create kb t vs pos = some ix) {idx : Nat} (hi : idx < 6)
    (hq : place idx pos ≠ 0) (hx : ¬ (pos = 2 ∧ idx = 5)) {first : Int} (h0 : 0 ≤ first) (i : Option Nat) : ix.nFirst idx first i (-1) = ix.nuniquefirstterms.getD idx 0 := by
  obtain ⟨s, p, o⟩ := t
  have hi' : idx = 0 ∨ idx = 1 ∨ idx = 2 ∨ idx = 3 ∨ idx = 4 ∨ idx = 5 := by omega
  have hp' : pos = 0 ∨ pos = 1 ∨ pos = 2 := by have := hu.lt; omega
  have hne : first ≠ -1 := by omega
  simp only [create] at h
  split at h
  · cases h
  · rcases hp' with rfl | rfl | rfl
    all_goals
      simp only [if_true, if_false, Nat.one_ne_zero, Nat.reduceEqDiff] at h
      injection h with h
      subst h
      rcases hi' with rfl | rfl | rfl | rfl | rfl | rfl
      all_goals
        first
        | exact absurd rfl hq
        | exact absurd ⟨rfl, rfl⟩ hx
        | (simp only [Index.nFirst, hne, if_false, if_true, show ¬ ((-1 : Int) ≥ 0) by decide, Nat.one_ne_zero, Nat.reduceEqDiff]; done)
        | (simp only [Index.nFirst, hne, if_false, if_true, show ¬ ((-1 : Int) ≥ 0) by decide, Nat.one_ne_zero, Nat.reduceEqDiff]; rfl)

/-- **C113 (new terms of a key, part).** For a key of the update, `getIterator` adds to `nfirstterms` the number of second terms that the update has with this key and the store does not.
Missing: index PSO if the objects vary (`C113_pso_violated`), and as for `C112_iterator_partial`. -/
theorem C113_terms_partial {kb : Kb} {K : List T3} {t : T3} {vs : List Nat} {pos : Nat} {ix : Index} (hk : Serves kb K) (hu : Update t vs pos) (h : create kb t vs pos = some ix) {idx : Nat} (hi : idx < 6)
    (hx : ¬ (pos = 2 ∧ idx = 5)) {first : Int} (h0 : 0 ≤ first) (hkey : IsKey t vs pos idx first) (old : Bool) :
    ∃ l : List Int, l.Nodup ∧ (∀ x, x ∈ l ↔ NewPair K t vs pos idx (first, x)) ∧ (ix.getIterator old idx first (-1) (-1)).2 = l.length := by
  obtain ⟨e1, e2, e3, e4⟩ := create_parts hu h
  have hs : ix.values.Pairwise (· < ·) := by rw [e1]; exact sorted_ints hu.sorted
  have hl : ix.size = ix.values.length := by rw [e1, e2, List.length_map]
  obtain ⟨u, hua, huf⟩ := hkey
  obtain ⟨v, hv, rfl⟩ := List.mem_map.1 hua
  rw [inOrder_withValue hi hu.lt] at huf
  have hole := hole_inOrder hi hu.hole
  by_cases hq : place idx pos = 0
  · rw [hq] at huf hole
    have hfv : first = (v : Int) := huf.symm
    have ht1 : (inOrder idx t).1 = -1 := by
      rcases hole with g | g | g
      · exact g.2.1
      · exact absurd g.1 (by decide)
      · exact absurd g.1 (by decide)
    have hmem : first ∈ ix.values := by rw [e1, hfv]; exact List.mem_map.2 ⟨v, hv, rfl⟩
    rcases posValue_spec hs hl first with ⟨_, g2, g3, _⟩ | ⟨g1, _⟩
    · have hlt : ix.posValue first < vs.length := by rw [← e2]; exact g2
      have hval : (vs[ix.posValue first] : Int) = first := by
        rw [e1, List.getElem?_map, List.getElem?_eq_getElem hlt] at g3
        exact Option.some.inj g3
      have hres : (ix.getIterator old idx first (-1) (-1)).2 = if inStore K idx first (inOrder idx t).2.1 then 0 else 1 := by
        have hn := nFirst_flag hk hu h hi hq h0 hlt
        rw [hval] at hn
        rw [← hn]
        unfold Index.getIterator
        simp only [e3]
        rw [show permute idx t.1 t.2.1 t.2.2 = inOrder idx t from rfl]
        simp only [ht1, ne_eq, not_true_eq_false, false_and, and_false, if_false, if_true, Index.branch]
        rw [if_pos h0, if_neg (by omega)]
      have hnew : ∀ x, NewPair K t vs pos idx (first, x) ↔ x = (inOrder idx t).2.1 ∧ ¬ inStore K idx first x := by
        intro x
        constructor
        · rintro ⟨⟨w, hw, e⟩, g⟩
          obtain ⟨y, hy, rfl⟩ := List.mem_map.1 hw
          rw [inOrder_withValue hi hu.lt, hq] at e
          injection e with _ e
          exact ⟨e, g⟩
        · rintro ⟨rfl, g⟩
          exact ⟨⟨_, hua, by rw [inOrder_withValue hi hu.lt, hq, hfv]; rfl⟩, g⟩
      by_cases hin : inStore K idx first (inOrder idx t).2.1
      · exact ⟨[], List.nodup_nil, fun x => by rw [hnew]; exact ⟨fun g => absurd g List.not_mem_nil, fun ⟨g1, g2⟩ => absurd (g1 ▸ hin) g2⟩, by rw [hres, if_pos hin]; rfl⟩
      · exact ⟨[(inOrder idx t).2.1], by simp, fun x => by rw [hnew, List.mem_singleton]; exact ⟨fun g => ⟨g, g ▸ hin⟩, fun g => g.1⟩, by rw [hres, if_neg hin]; rfl⟩
    · exact absurd hmem g1
  · have hw : ∀ y, (withValue (inOrder idx t) (place idx pos) y).1 = (inOrder idx t).1 := fun y => by
      unfold withValue
      rw [if_neg hq]
      split <;> rfl
    rw [hw] at huf
    obtain ⟨l, l1, l2, l3⟩ := unique_list (K := K) hu (create_ne h) hi
    have hfst : ∀ a ∈ l, a.1 = first := by
      intro a ha
      obtain ⟨⟨w, hwm, e⟩, _⟩ := (l2 a).1 ha
      obtain ⟨y, hy, rfl⟩ := List.mem_map.1 hwm
      rw [e, inOrder_withValue hi hu.lt]
      exact (hw _).trans huf
    refine ⟨l.map Prod.snd, ?_, fun x => ?_, ?_⟩
    · rw [List.Nodup, List.pairwise_map]
      refine l1.imp_of_mem fun {a b} ha hb hab e => hab ?_
      exact Prod.ext ((hfst a ha).trans (hfst b hb).symm) e
    · rw [List.mem_map]
      constructor
      · rintro ⟨a, ha, rfl⟩
        have := (l2 a).1 ha
        rwa [← hfst a ha]
      · exact fun g => ⟨(first, x), (l2 _).2 g, rfl⟩
    · rw [List.length_map, l3]
      have hn := create_unique hk hu h hi
      have hnum : ix.nuniquefirstterms.getD idx 0 = l.length := by rw [List.getD, hn, l3]; rfl
      rw [← l3, ← hnum]
      have ht1 : (inOrder idx t).1 ≠ -1 := by omega
      unfold Index.getIterator
      simp only [e3]
      rw [show permute idx t.1 t.2.1 t.2.2 = inOrder idx t from rfl]
      simp only [huf, ne_eq, not_true_eq_false, false_and, and_false, if_false]
      rw [if_neg (by omega)]
      split
      · unfold Index.branch
        rw [if_neg (by decide)]
        exact nFirst_number hu h hi hq hx h0 none
      · unfold Index.branch
        rw [if_neg (by decide)]
        exact nFirst_number hu h hi hq hx h0 none

/-- **C113 (keys, part).** For the index SPO, the list of keys has each subject of the update once, in order, and `getNUniqueKeys` is the number of those that the store does not have.
Missing: the other indexes (`C113_keys_violated`, `C113_count_violated`, `C113_array_violated`), and as for `C112_iterator_partial`. -/
theorem C113_keys_partial {kb : Kb} {K : List T3} {t : T3} {vs : List Nat} {pos : Nat} {ix : Index} (hk : Serves kb K) (hu : Update t vs pos) (h : create kb t vs pos = some ix) :
    ∃ keys, ix.termList 0 = some keys ∧ keys.Pairwise (· < ·) ∧ (∀ x, x ∈ keys ↔ IsKey t vs pos 0 x) ∧ ix.getNUniqueKeys 0 = some (keys.filter fun x => decide (¬ ∃ u ∈ K, u.1 = x)).length := by
  obtain ⟨e1, e2, e3, e4⟩ := create_parts hu h
  have hne := create_ne h
  have hs := sorted_ints hu.sorted
  have hp' : pos = 0 ∨ pos = 1 ∨ pos = 2 := by have := hu.lt; omega
  have hkeys : ∀ x, IsKey t vs pos 0 x ↔ ∃ v ∈ vs, (withValue t pos (v : Int)).1 = x := by
    intro x
    simp only [IsKey, added, List.mem_map]
    constructor
    · rintro ⟨_, ⟨v, hv, rfl⟩, e⟩; exact ⟨v, hv, e⟩
    · rintro ⟨v, hv, e⟩; exact ⟨_, ⟨v, hv, rfl⟩, e⟩
  obtain ⟨v0, hv0⟩ := List.exists_mem_of_ne_nil _ hne
  have hconst : pos ≠ 0 → ∀ v : Int, (withValue t pos v).1 = t.1 := fun hp v => by
    unfold withValue
    rw [if_neg hp]
    split <;> rfl
  have hcount : pos ≠ 0 → absent (kb.existKey 0 t.1) = ([t.1].filter fun x => decide (¬ ∃ u ∈ K, u.1 = x)).length := by
    intro _
    rw [absent_eq (hk.exist 0 (by decide) t.1)]
    by_cases g : ∃ u ∈ K, field 0 u = t.1
    · rw [if_pos g, List.filter_eq_nil_iff.2]; rfl
      intro a ha
      rw [List.mem_singleton.1 ha]
      simpa [field] using g
    · rw [if_neg g, List.filter_eq_self.2]; rfl
      intro a ha
      rw [List.mem_singleton.1 ha]
      exact decide_eq_true g
  have hfield : ix.posValues = pos ∧ ix.nkeys[0]? = some (if pos = 0 then vs.length else 1) ∧ ix.nuniquekeys[0]? = some (if pos = 0 then (outerJoin (kb.keys 0) vs).sum else absent (kb.existKey 0 t.1)) := by
    simp only [create] at h
    split at h
    · cases h
    · rcases hp' with rfl | rfl | rfl
      all_goals
        simp only [if_true, if_false, Nat.one_ne_zero, Nat.reduceEqDiff] at h
        injection h with h
        subst h
        exact ⟨rfl, rfl, rfl⟩
  obtain ⟨_, f1, f2⟩ := hfield
  by_cases hp : pos = 0
  · subst hp
    simp only [if_true] at f1 f2
    refine ⟨vs.map fun v : Nat => (v : Int), ?_, hs, fun x => ?_, ?_⟩
    · rw [Index.termList, f1, e4, e1]
      simp only [Option.map_some, show keyField 0 = 0 from rfl, if_true]
      rw [List.take_of_length_le (by simp)]
    · rw [hkeys, List.mem_map]; rfl
    · rw [Index.getNUniqueKeys, f2]
      congr 1
      rw [sum_new (P := fun v : Nat => ∃ u ∈ K, u.1 = (v : Int)) (hk.keys 0 (by decide)).1 hu.sorted fun v => (hk.keys 0 (by decide)).2 v, List.filter_map, List.length_map]
      congr 1
      exact List.filter_congr fun v _ => decide_eq_decide.2 Iff.rfl
  · simp only [hp, if_false] at f1 f2
    refine ⟨[t.1], ?_, by simp, fun x => ?_, ?_⟩
    · rw [Index.termList, f1, e4, e3]
      simp only [Option.map_some, show keyField 0 = 0 from rfl]
      rw [if_neg (fun e => hp e.symm)]
      rfl
    · rw [hkeys, List.mem_singleton]
      simp only [hconst hp]
      exact ⟨fun g => ⟨v0, hv0, g.symm⟩, fun ⟨_, _, g⟩ => g.symm⟩
    · rw [Index.getNUniqueKeys, f2, hcount hp]

/-- **C113 (keys of objects, violated).** An update with two objects: the list of the keys of OPS has one of them. -/
theorem C113_keys_violated : ∃ t vs ix, Update t vs 2 ∧ create exKb t vs 2 = some ix ∧ IsKey t vs 2 1 9 ∧ ix.termList 1 = some [8] :=
  ⟨(1, 5, -1), [8, 9], _, ⟨by unfold Hole; decide, by decide, Or.inl (by decide)⟩, rfl, ⟨(1, 5, 9), by decide, rfl⟩, by decide⟩

/-- **C113 (new keys of objects, violated).** Both objects of the update are new, but the number of new keys of OPS is that of the predicates. -/
theorem C113_count_violated : ∃ t vs ix, Update t vs 2 ∧ create exKb t vs 2 = some ix ∧ (∀ u ∈ exStore, u.2.2 ≠ 8 ∧ u.2.2 ≠ 9) ∧ added t vs 2 = [(1, 5, 8), (1, 5, 9)] ∧ ix.getNUniqueKeys 1 = some 0 :=
  ⟨(1, 5, -1), [8, 9], _, ⟨by unfold Hole; decide, by decide, Or.inl (by decide)⟩, rfl, by decide, by decide, by decide⟩

/-- **C113 (arrays, violated).** For the indexes SOP, OSP and PSO, the keys and their number are read behind the end of an array. -/
theorem C113_array_violated {kb : Kb} {t : T3} {vs : List Nat} {pos : Nat} {ix : Index} (h : create kb t vs pos = some ix) {idx : Nat} (hi : 3 ≤ idx) : ix.termList idx = none ∧ ix.getNUniqueKeys idx = none := by
  have hlen : ix.nkeys.length = 3 ∧ ix.nuniquekeys.length = 3 := by
    simp only [create] at h
    split at h
    · cases h
    · split at h
      · injection h with h; subst h; exact ⟨rfl, rfl⟩
      · split at h
        · injection h with h; subst h; exact ⟨rfl, rfl⟩
        · injection h with h; subst h; exact ⟨rfl, rfl⟩
  constructor
  · rw [Index.termList, List.getElem?_eq_none (by omega)]; rfl
  · rw [Index.getNUniqueKeys, List.getElem?_eq_none (by omega)]

/-- **C113 (PSO, violated).** An update with the triples (1, 5, 8) and (1, 5, 9) of a store that has (1, 5, 6): no subject is new for the predicate 5, but two are counted. -/
theorem C113_pso_violated : ∃ t vs ix, Update t vs 2 ∧ create exKb t vs 2 = some ix ∧ (∀ x, ¬ NewPair exStore t vs 2 5 (5, x)) ∧ (ix.getIterator true 5 5 (-1) (-1)).2 = 2 := by
  refine ⟨(1, 5, -1), [8, 9], _, ⟨by unfold Hole; decide, by decide, Or.inl (by decide)⟩, rfl, ?_, by decide⟩
  rintro x ⟨⟨u, hu, e⟩, g⟩
  have h1 : u = (1, 5, 8) ∨ u = (1, 5, 9) := by simpa [added, withValue] using hu
  have hx : x = 1 := by
    rcases h1 with rfl | rfl <;> exact (Prod.mk.inj e).2
  subst hx
  exact g ⟨(1, 5, 6), by decide, rfl, rfl⟩

/-! ## The theorems are about something -/

theorem small_mem {l : List T3} (h : ∀ u ∈ l, (1 ≤ u.1 ∧ u.1 ≤ 7) ∧ (1 ≤ u.2.1 ∧ u.2.1 ≤ 7) ∧ (1 ≤ u.2.2 ∧ u.2.2 ≤ 7)) {u : T3} (hu : u ∈ l) {v : Nat} (hv : u.1 = v ∨ u.2.1 = v ∨ u.2.2 = v) :
    v ∈ ([1, 2, 3, 4, 5, 6, 7] : List Nat) := by
  have := h u hu
  simp only [List.mem_cons, List.not_mem_nil, or_false]
  omega

theorem exServes : Serves exKb exStore := by
  have hsm : ∀ u ∈ exStore, (1 ≤ u.1 ∧ u.1 ≤ 7) ∧ (1 ≤ u.2.1 ∧ u.2.1 ≤ 7) ∧ (1 ≤ u.2.2 ∧ u.2.2 ≤ 7) := by decide
  have hsorted : ([1, 2, 3, 4, 5, 6, 7] : List Nat).Pairwise (· < ·) := by decide
  refine ⟨fun f hf => ⟨by simp only [exKb]; exact hsorted.filter _, fun v => ?_⟩, fun f hf x => ?_, fun idx hi a => ⟨by simp only [exKb]; exact hsorted.filter _, fun v => ?_⟩, fun idx hi a b => ?_⟩
  · simp only [exKb, List.mem_filter, List.any_eq_true, beq_iff_eq]
    refine ⟨fun g => g.2, fun ⟨u, hu, e⟩ => ⟨small_mem hsm hu ?_, u, hu, e⟩⟩
    unfold field at e
    split at e
    · exact Or.inl e
    · split at e
      · exact Or.inr (Or.inl e)
      · exact Or.inr (Or.inr e)
  · simp only [exKb, List.any_eq_true, beq_iff_eq]
  · simp only [exKb, List.mem_filter, List.any_eq_true, Bool.and_eq_true, beq_iff_eq]
    refine ⟨fun g => g.2, fun ⟨u, hu, e⟩ => ⟨small_mem hsm hu ?_, u, hu, e⟩⟩
    have hi' : idx = 0 ∨ idx = 1 ∨ idx = 2 ∨ idx = 3 ∨ idx = 4 ∨ idx = 5 := by omega
    have e2 := e.2
    rcases hi' with rfl | rfl | rfl | rfl | rfl | rfl <;> simp only [inOrder, permute] at e2 <;> simp [e2]
  · simp only [exKb, List.any_eq_true, Bool.and_eq_true, beq_iff_eq]
    rfl

/-- An update of this store: the triples (1, 5, 6), (1, 5, 8) and (1, 5, 9). -/
theorem exUpdate : Update (1, 5, -1) [6, 8, 9] 2 := ⟨by unfold Hole; decide, by decide, Or.inl (by decide)⟩

/-- An update with large ids. -/
theorem exLarge : Update (-1, 5, 6) [1, 3000000000, 5000000000] 0 := ⟨by unfold Hole; decide, by decide, Or.inr ⟨⟨5000000000, by decide, by decide⟩, by decide⟩⟩

example : ∃ ix, create exKb (1, 5, -1) [6, 8, 9] 2 = some ix ∧ triples (ix.getIterator false 1 8 (-1) (-1)) = [(8, 5, 1)] ∧ pairs (ix.getIterator true 3 1 (-1) (-1)) = [(1, 6), (1, 8), (1, 9)] ∧ ix.getCard 2 5 = 3 :=
  ⟨_, rfl, by decide, by decide, by decide⟩

example : ∃ ix, create exKb (-1, 5, 6) [1, 3000000000, 5000000000] 0 = some ix ∧ triples (ix.getIterator false 2 5 6 (-1)) = [(5, 6, 1), (5, 6, 3000000000), (5, 6, 5000000000)] := by
  obtain ⟨ix, h⟩ := C112_create exKb (-1, 5, 6) (vs := [1, 3000000000, 5000000000]) (by simp) 0
  refine ⟨ix, h, ?_⟩
  rw [C112_iterator_partial exLarge h false (by decide) (by decide) (by decide) (by decide)]
  rfl

example : ∃ ix, create exKb (1, 5, -1) [6, 8, 9] 2 = some ix ∧ ∃ l : List (Int × Int), l.Nodup ∧ (∀ a, a ∈ l ↔ NewPair exStore (1, 5, -1) [6, 8, 9] 2 3 a) ∧ ix.getUniqueNFirstTerms 3 = some l.length :=
  ⟨_, rfl, C113_unique_partial exServes exUpdate rfl (by decide)⟩

example : ∃ ix, create exKb (1, 5, -1) [6, 8, 9] 2 = some ix ∧ ix.getNFirstTables 3 = some 3 ∧ ∃ l : List (Int × Int), l.Nodup ∧
    (∀ a, a ∈ l ↔ ∃ u ∈ added (1, 5, -1) [6, 8, 9] 2, a = ((inOrder 3 u).1, (inOrder 3 u).2.1)) ∧ some 3 = some l.length :=
  ⟨_, rfl, rfl, C113_tables (kb := exKb) exUpdate rfl (by decide)⟩

example : ∃ ix, create exKb (1, 5, -1) [6, 8, 9] 2 = some ix ∧ (ix.getIterator true 3 1 (-1) (-1)).2 = 2 ∧ ∃ l : List Int, l.Nodup ∧ (∀ x, x ∈ l ↔ NewPair exStore (1, 5, -1) [6, 8, 9] 2 3 (1, x)) ∧ 2 = l.length :=
  ⟨_, rfl, by decide, C113_terms_partial exServes exUpdate rfl (idx := 3) (by decide) (by decide) (by decide) ⟨(1, 5, 6), by decide, rfl⟩ true⟩

example : ∃ ix keys, create exKb (-1, 5, 6) [1, 3000000000, 5000000000] 0 = some ix ∧ ix.termList 0 = some keys ∧ keys = [1, 3000000000, 5000000000] ∧ ix.getNUniqueKeys 0 = some 2 := by
  obtain ⟨ix, h⟩ := C112_create exKb (-1, 5, 6) (vs := [1, 3000000000, 5000000000]) (by simp) 0
  injection h with h
  subst h
  exact ⟨_, _, rfl, rfl, by decide +kernel, by decide +kernel⟩

end Trident.Diff1
