import Verif.Sparql.UnionProofs
import Verif.Sparql.MergeUnionProofs
/-!
# C71: UNION

C71: the solutions of a UNION are those of all its parts, with all their occurrences; a variable that a part does not have is unbound in the solutions of that part.
The operator for two sorted parts with one variable (`MergeUnion`) may repeat a row.
-/
namespace Trident.Sparql.Union

/-- **C71 (UNION).** For all parts, all rows, all contents of the registers before, and all variables. -/
theorem C71_union (parts : List Part) (hs : Separate parts) (vars : List Nat) (R : Regs) :
    rows parts vars R =
      (Spec.union (parts.map fun p => p.rows.map fun r => (r.1, fun v => (p.binds.lookup v).map r.2))).map (Spec.row unbound vars) := by
  have h := fromPart_ok hs vars parts (fun _ h => h) R
  have e : rows parts vars R = (fromPart (bindings parts) parts R).map (seen (bindings parts) vars) := rfl
  rw [e, h]
  clear h e hs
  generalize hp : parts = ps
  clear hp
  induction ps with
  | nil => rfl
  | cons p ps ih =>
    rw [List.flatMap_cons, ih]
    simp only [Spec.union, List.map_cons, List.flatten_cons, List.map_append, List.map_map]
    rfl

/-- Two parts: `{ ?0 … ?1 }` in the registers 10 and 11, and `{ ?1 … ?2 }` in the registers 20 and 21. -/
def exampleParts : List Part :=
  [⟨fun x => x == 10 || x == 11, [(1, fun x => if x = 10 then 5 else 6), (3, fun x => if x = 10 then 7 else 8)], [(0, 10), (1, 11)]⟩,
   ⟨fun x => x == 20 || x == 21, [(2, fun x => if x = 20 then 6 else 9), (1, fun x => if x = 20 then 1 else 2)], [(1, 20), (2, 21)]⟩]

theorem exampleParts_separate : Separate exampleParts where
  disjoint := by
    refine List.pairwise_cons.2 ⟨?_, List.pairwise_singleton _ _⟩
    intro q hq x hx
    rw [List.mem_singleton] at hq
    subst hq
    simp only [Bool.or_eq_true, beq_iff_eq] at hx
    rcases hx with rfl | rfl <;> rfl
  owned := by
    intro p hp b hb
    simp only [exampleParts, List.mem_cons, List.not_mem_nil, or_false] at hp
    rcases hp with rfl | rfl <;> simp only [List.mem_cons, List.not_mem_nil, or_false] at hb <;> rcases hb with rfl | rfl <;> rfl
  once := by
    intro p hp b hb b' hb'
    simp only [exampleParts, List.mem_cons, List.not_mem_nil, or_false] at hp
    rcases hp with rfl | rfl <;> simp only [List.mem_cons, List.not_mem_nil, or_false] at hb hb' <;> rcases hb with rfl | rfl <;> rcases hb' with rfl | rfl <;> decide

example : Separate exampleParts ∧
    rows exampleParts [0, 1, 2] (fun _ => 77) = [(1, [5, 6, unbound]), (3, [7, 8, unbound]), (2, [unbound, 6, 9]), (1, [unbound, 1, 2])] :=
  ⟨exampleParts_separate, by decide⟩

end Trident.Sparql.Union

namespace Trident.Sparql.MergeUnion
open Spec

/-- The rows that are returned, and a possible repetition. -/
theorem returns_extra (left right : List (Nat × Nat)) : ∃ out e, Returns left right out ∧ (∀ r ∈ out, ∃ x, r.2 = [x]) ∧ e.length ≤ 1 ∧
    (∀ x ∈ e, x ∈ right ∧ (left.getLast?.map (·.2)) = some x.2) ∧ ∀ v, bag out [v] = times left v + times right v + times e v := by
  match left, right with
  | [], [] => exact ⟨[], [], rfl, by simp, by simp, by simp, fun v => rfl⟩
  | [], r :: rs =>
    obtain ⟨l, h1, h2, h3⟩ := leftEmpty_runs _ ⟨.leftEmpty, [], rs, 0, 0, r.1, r.2⟩ rfl (Nat.le_refl _)
    refine ⟨_, [], ⟨l, h1, rfl⟩, ?_, by simp, by simp, ?_⟩
    · intro q hq
      rcases List.mem_cons.1 hq with rfl | hq
      · exact ⟨_, rfl⟩
      · exact h2 q hq
    · intro v
      rw [bag_one, h3, times_cons]; simp [times_nil]
  | l :: ls, [] =>
    obtain ⟨q, h1, h2, h3⟩ := rightEmpty_runs _ ⟨.rightEmpty, ls, [], l.1, l.2, 0, 0⟩ rfl (Nat.le_refl _)
    refine ⟨_, [], ⟨q, h1, rfl⟩, ?_, by simp, by simp, ?_⟩
    · intro q hq
      rcases List.mem_cons.1 hq with rfl | hq
      · exact ⟨_, rfl⟩
      · exact h2 q hq
    · intro v
      rw [bag_one, h3, times_cons]; simp [times_nil]
  | l :: ls, r :: rs =>
    have main : ∀ (p : MU) (c x : Nat) (s' : MU), p = ⟨.stepBoth, ls, rs, l.1, l.2, r.1, r.2⟩ → handle p = .emit (c, [x]) s' → Coherent s' →
        s'.left = ls → s'.right = rs → s'.leftValue = l.2 → s'.rightCount = r.1 → s'.rightValue = r.2 →
        (∀ v, (if x = v then c else 0) + times (owed s') v = times (l :: ls) v + times (r :: rs) v) →
        ∃ out e, Returns (l :: ls) (r :: rs) out ∧ (∀ r ∈ out, ∃ x, r.2 = [x]) ∧ e.length ≤ 1 ∧
          (∀ x ∈ e, x ∈ (r :: rs) ∧ ((l :: ls).getLast?.map (·.2)) = some x.2) ∧ ∀ v, bag out [v] = times (l :: ls) v + times (r :: rs) v + times e v := by
      intro p c x s' hp hh hc h1 h2 h3 h4 h5 hb
      obtain ⟨o, e, a1, a2, a3, a4⟩ := good _ s' hc (Nat.le_refl _)
      refine ⟨(c, [x]) :: o, e, ?_, ?_, a2.1, ?_, ?_⟩
      · simp only [Returns, first]
        rw [← hp, hh]
        exact ⟨o, a1, rfl⟩
      · intro q hq
        rcases List.mem_cons.1 hq with rfl | hq
        · exact ⟨_, rfl⟩
        · exact a3 q hq
      · intro y hy
        have := a2.2 y hy
        rw [h1, h2, h3, h4, h5] at this
        refine ⟨this.1, ?_⟩
        rw [← this.2, ← List.getLast?_map]
        rfl
      · intro v
        rw [bag_one, a4, ← hb]; omega
    by_cases h1 : l.2 < r.2
    · refine main _ l.1 l.2 _ rfl (by rw [handle, if_pos h1]) (by intro h; cases h) rfl rfl rfl rfl rfl ?_
      intro v
      simp only [owed, times_cons, times_append]; omega
    · by_cases h2 : r.2 < l.2
      · refine main _ r.1 r.2 _ rfl (by rw [handle, if_neg h1, if_pos h2]) (by intro h; cases h) rfl rfl rfl rfl rfl ?_
        intro v
        simp only [owed, times_cons, times_append]; omega
      · have he : l.2 = r.2 := by omega
        refine main _ (l.1 + r.1) l.2 _ rfl (by rw [handle, if_neg h1, if_neg h2]) (fun _ => he) rfl rfl rfl rfl rfl ?_
        intro v
        simp only [owed, times_cons, times_append, he]
        split <;> omega

/-- **C71 (sorted parts, part).** The union of two lists of values returns every value at least as often as both parts together, and exactly as often
if the last value of the first part is not a value of the second part.
Missing, and wrong in the code: the exact number if the last value of the first part is also in the second part. -/
theorem C71_merge_union_partial (left right : List (Nat × Nat)) : ∃ out, Returns left right out ∧ (∀ r ∈ out, ∃ x, r.2 = [x]) ∧
    (∀ v, times left v + times right v ≤ bag out [v]) ∧
    (∀ v, left.getLast?.map (·.2) ≠ some v → bag out [v] = times left v + times right v) ∧
    ((∀ x ∈ right, left.getLast?.map (·.2) ≠ some x.2) → ∀ v, bag out [v] = times left v + times right v) := by
  obtain ⟨out, e, h1, h2, h3, h4, h5⟩ := returns_extra left right
  refine ⟨out, h1, h2, ?_, ?_, ?_⟩
  · intro v; rw [h5]; omega
  · intro v hv
    rw [h5]
    have : times e v = 0 := by
      match e, h3 with
      | [], _ => rfl
      | [x], _ =>
        have := (h4 x (by simp)).2
        rw [times_cons, if_neg, times_nil]
        intro hx
        rw [hx] at this; exact hv this
    omega
  · intro hne v
    rw [h5]
    match e, h3 with
    | [], _ => rfl
    | [x], _ => exact absurd (h4 x (by simp)).2 (hne x (h4 x (by simp)).1)

/-- **C71 (sorted parts, values).** The values that are returned are those of the two parts. -/
theorem C71_merge_union_values (left right : List (Nat × Nat)) (out : List Row) (hr : Returns left right out) (v : Nat) :
    0 < bag out [v] ↔ 0 < times left v ∨ 0 < times right v := by
  obtain ⟨out', e, h1, h2, h3, h4, h5⟩ := returns_extra left right
  have : out = out' := by
    unfold Returns at hr h1
    match hf : first left right with
    | .stop => rw [hf] at hr h1; rw [hr, h1]
    | .go _ => rw [hf] at hr; exact hr.elim
    | .emit r s =>
      rw [hf] at hr h1
      obtain ⟨l, a, b⟩ := hr
      obtain ⟨l', a', b'⟩ := h1
      rw [b, b', a.unique a']
  subst this
  rw [h5]
  have : 0 < times e v → 0 < times right v := by
    intro hp
    match e, h3 with
    | [], _ => simp [times_nil] at hp
    | [x], _ =>
      have hx := (h4 x (by simp)).1
      rw [times_cons, times_nil] at hp
      have hxv : x.2 = v := by
        by_cases h : x.2 = v
        · exact h
        · rw [if_neg h] at hp; omega
      rw [if_pos hxv] at hp
      clear h4 h5 h1 hr
      induction right with
      | nil => cases hx
      | cons y l ih =>
        rw [times_cons]
        rcases List.mem_cons.1 hx with rfl | hx
        · rw [if_pos hxv]; omega
        · have := ih hx; omega
  omega

/-- **C71 (sorted parts, order).** If the parts are sorted, so is the union. -/
theorem C71_merge_union_sorted (left right : List (Nat × Nat)) (hl : left.Pairwise fun x y => x.2 ≤ y.2) (hr : right.Pairwise fun x y => x.2 ≤ y.2)
    (out : List Row) (h : Returns left right out) : out.Pairwise fun r r' => ∃ x y, r.2 = [x] ∧ r'.2 = [y] ∧ x ≤ y := by
  have key : Emits 0 (first left right) := by
    match left, right with
    | [], [] => exact trivial
    | [], r :: rs => exact ⟨_, rfl, Nat.zero_le _, (sorted_cons hr).1, (sorted_cons hr).2⟩
    | l :: ls, [] => exact ⟨_, rfl, Nat.zero_le _, (sorted_cons hl).1, (sorted_cons hl).2⟩
    | l :: ls, r :: rs => exact handle_sorted (Nat.zero_le _) (Nat.zero_le _) (sorted_cons hl).1 (sorted_cons hr).1 (sorted_cons hl).2 (sorted_cons hr).2
  unfold Returns at h
  split at h
  · rw [h]; exact .nil
  · exact h.elim
  · rename_i r s e
    obtain ⟨l, a, b⟩ := h
    rw [e] at key
    obtain ⟨x, k1, _, k2⟩ := key
    obtain ⟨b1, b2⟩ := runs_sorted a x k2
    rw [b]
    refine List.pairwise_cons.2 ⟨?_, b2⟩
    intro q hq
    obtain ⟨y, c1, c2⟩ := b1 q hq
    exact ⟨x, y, k1, c1, c2⟩

/-- **C71 (sorted parts, exact number) violated.** Both parts have the value 5 once; the union returns it three times. -/
theorem C71_merge_union_violated : ∃ (left right : List (Nat × Nat)) (out : List Row), Returns left right out ∧ bag out [5] ≠ times left 5 + times right 5 :=
  ⟨[(1, 5)], [(1, 5)], [(2, [5]), (1, [5])], ⟨[(1, [5])], runs_of_runFor 5 (by decide +kernel), rfl⟩, by decide⟩

example : ([(1, 3), (2, 5)] : List (Nat × Nat)).Pairwise (fun x y => x.2 ≤ y.2) ∧ ([(1, 3), (1, 4)] : List (Nat × Nat)).Pairwise (fun x y => x.2 ≤ y.2) ∧
    (∀ x ∈ ([(1, 3), (1, 4)] : List (Nat × Nat)), ([(1, 3), (2, 5)] : List (Nat × Nat)).getLast?.map (·.2) ≠ some x.2) ∧
    Returns [(1, 3), (2, 5)] [(1, 3), (1, 4)] [(2, [3]), (1, [4]), (2, [5])] :=
  ⟨by simp, by simp, by decide, ⟨_, runs_of_runFor 9 (by decide +kernel), rfl⟩⟩

end Trident.Sparql.MergeUnion
