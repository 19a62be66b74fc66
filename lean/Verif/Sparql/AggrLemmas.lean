import Verif.Sparql.AggrProofs
import Verif.Sparql.AggrSpec
/-! # Aggregates and their specification -/
namespace Trident.Sparql

variable {D : Type}

theorem expand_cons (r : Row) (l : List Row) : expand (r :: l) = List.replicate r.1 r.2 ++ expand l := rfl

theorem expand_ones {l : List Row} (h : ∀ r ∈ l, r.1 = 1) : expand l = l.map (·.2) := by
  induction l with
  | nil => rfl
  | cons r l ih => rw [expand_cons, ih fun s hs => h s (List.mem_cons_of_mem _ hs), h r (by simp)]; rfl

theorem mem_expand {l : List Row} {t : Tup} : t ∈ expand l ↔ ∃ r ∈ l, r.2 = t ∧ 0 < r.1 := by
  simp only [expand, List.mem_flatMap, List.mem_replicate]
  constructor
  · rintro ⟨r, a, b, c⟩; exact ⟨r, a, c.symm, by omega⟩
  · rintro ⟨r, a, b, c⟩; exact ⟨r, a, by omega, b.symm⟩

theorem expand_filter (l : List Row) (p : Tup → Bool) : (expand l).filter p = expand (l.filter fun r => p r.2) := by
  induction l with
  | nil => rfl
  | cons r l ih =>
    rw [expand_cons, List.filter_append, ih]
    by_cases h : p r.2 = true
    · rw [List.filter_cons_of_pos (by simpa using h), expand_cons, List.filter_replicate, if_pos h]
    · rw [List.filter_cons_of_neg (by simpa using h), List.filter_replicate, if_neg h, List.nil_append]

theorem expand_perm {l l' : List Row} (h : l.Perm l') : (expand l).Perm (expand l') := h.flatMap_right _

theorem after_count (num : Nat → Num D) (cols) (c : Call D) (g : List Row) (h : c.id = .count) :
    (after num cols c g).arg1Int = c.arg1Int + ((expand g).length : Int) := by
  induction g generalizing c with
  | nil => simp [after, expand]
  | cons r g ih =>
    rw [after_cons, ih _ (by rwa [(stepC_id _ _ _).1]), expand_cons]
    simp only [stepC, h, List.length_append, List.length_replicate]
    omega

theorem after_sum (num : Nat → Num D) (cols) (c : Call D) (g : List Row) (h : c.id = .sum ∨ c.id = .avg) :
    (after num cols c g).arg1Int = c.arg1Int + (g.map fun r => intOf (num (col r.2 (cols c.inVar)))).sum := by
  induction g generalizing c with
  | nil => simp [after]
  | cons r g ih =>
    rw [after_cons, ih _ (by rwa [(stepC_id _ _ _).1]), (stepC_id _ _ _).2.1]
    rcases h with h | h <;> simp only [stepC, h, List.map_cons, List.sum_cons] <;> omega

theorem after_avg (num : Nat → Num D) (cols) (c : Call D) (g : List Row) (h : c.id = .avg) :
    (after num cols c g).arg2Int = c.arg2Int + (g.length : Int) := by
  induction g generalizing c with
  | nil => simp [after]
  | cons r g ih =>
    rw [after_cons, ih _ (by rwa [(stepC_id _ _ _).1])]
    simp only [stepC, h, List.length_cons]; omega

theorem after_min (num : Nat → Num D) (cols) (c : Call D) (g : List Row) (h : c.id = .min) (h2 : c.arg2Bool = false) :
    ((after num cols c g).arg1Int = c.arg1Int ∨ ∃ r ∈ g, (after num cols c g).arg1Int = intOf (num (col r.2 (cols c.inVar)))) ∧
    (after num cols c g).arg1Int ≤ c.arg1Int ∧ ∀ r ∈ g, (after num cols c g).arg1Int ≤ intOf (num (col r.2 (cols c.inVar))) := by
  induction g generalizing c with
  | nil => simp [after]
  | cons r g ih =>
    rw [after_cons]
    generalize hv : intOf (num (col r.2 (cols c.inVar))) = v
    obtain ⟨a, b, d⟩ := ih (stepC c r.1 v) (by rwa [(stepC_id _ _ _).1]) (stepC_arg2 _ _ _ (Or.inl h))
    rw [(stepC_id _ _ _).2.1] at a d
    have hs : (stepC c r.1 v).arg1Int = v ∧ v < c.arg1Int ∨ (stepC c r.1 v).arg1Int = c.arg1Int ∧ c.arg1Int ≤ v := by
      simp only [stepC, h, h2]
      by_cases hlt : v < c.arg1Int
      · left; simp [hlt]
      · right; simp [hlt]; omega
    refine ⟨?_, by omega, ?_⟩
    · rcases a with a | ⟨s, hs', a⟩
      · rcases hs with hs | hs
        · right; exact ⟨r, by simp, by rw [a, hs.1, hv]⟩
        · left; rw [a, hs.1]
      · right; exact ⟨s, List.mem_cons_of_mem _ hs', a⟩
    · intro s hs'
      rcases List.mem_cons.1 hs' with rfl | hs'
      · rw [hv]; omega
      · exact d s hs'

theorem after_max (num : Nat → Num D) (cols) (c : Call D) (g : List Row) (h : c.id = .max) (h2 : c.arg2Bool = false) :
    ((after num cols c g).arg1Int = c.arg1Int ∨ ∃ r ∈ g, (after num cols c g).arg1Int = intOf (num (col r.2 (cols c.inVar)))) ∧
    c.arg1Int ≤ (after num cols c g).arg1Int ∧ ∀ r ∈ g, intOf (num (col r.2 (cols c.inVar))) ≤ (after num cols c g).arg1Int := by
  induction g generalizing c with
  | nil => simp [after]
  | cons r g ih =>
    rw [after_cons]
    generalize hv : intOf (num (col r.2 (cols c.inVar))) = v
    obtain ⟨a, b, d⟩ := ih (stepC c r.1 v) (by rwa [(stepC_id _ _ _).1]) (stepC_arg2 _ _ _ (Or.inr h))
    rw [(stepC_id _ _ _).2.1] at a d
    have hs : (stepC c r.1 v).arg1Int = v ∧ v > c.arg1Int ∨ (stepC c r.1 v).arg1Int = c.arg1Int ∧ v ≤ c.arg1Int := by
      simp only [stepC, h, h2]
      by_cases hlt : v > c.arg1Int
      · left; simp [hlt]
      · right; simp [hlt]; omega
    refine ⟨?_, by omega, ?_⟩
    · rcases a with a | ⟨s, hs', a⟩
      · rcases hs with hs | hs
        · right; exact ⟨r, by simp, by rw [a, hs.1, hv]⟩
        · left; rw [a, hs.1]
      · right; exact ⟨s, List.mem_cons_of_mem _ hs', a⟩
    · intro s hs'
      rcases List.mem_cons.1 hs' with rfl | hs'
      · rw [hv]; omega
      · exact d s hs'

theorem valueOf_is (o : Dbl D) (num : Nat → Num D) (cols : Nat → Nat) (a : Fn × Nat × Nat) (g : List Row) (hg : g ≠ []) (hp : ∀ r ∈ g, 0 < r.1)
    (h1 : a.1 = .sum ∨ a.1 = .avg → ∀ r ∈ g, r.1 = 1) :
    Spec.IsAggregate a.1 ((expand g).map fun t => intOf (num (col t (cols a.2.1)))) (valueOf o num cols a g) := by
  unfold Spec.IsAggregate valueOf resultC
  rw [(after_id _ _ _ _).1]
  match g, hg, hp, h1 with
  | r :: g, _, hp, h1 =>
  match hid : a.1 with
  | .count => rw [after_count _ _ _ _ rfl]; simp
  | .sum =>
    rw [after_sum _ _ _ _ (Or.inl rfl), expand_ones (h1 (Or.inl hid)), List.map_map]
    simp [Function.comp_def]
  | .avg =>
    dsimp only
    rw [after_sum _ _ _ _ (Or.inr rfl), after_avg _ _ _ _ rfl, expand_ones (h1 (Or.inr hid)), List.map_map]
    simp only [Function.comp_def, List.length_map, Int.zero_add]
    rintro ⟨q, hq⟩
    have h0 : (((r :: g).length : Nat) : Int) ≠ 0 := by simp; omega
    rw [if_neg h0, ← hq, Int.mul_tdiv_cancel _ h0]
  | .min =>
    dsimp only
    rw [after_cons]
    obtain ⟨x, y, z⟩ := after_min num cols (stepC (⟨.min, a.2.1, a.2.2, 0, 0, o.zero, true, true⟩ : Call D) r.1 (intOf (num (col r.2 (cols a.2.1))))) g rfl rfl
    simp only [List.mem_map, mem_expand]
    refine ⟨?_, ?_⟩
    · rcases x with x | ⟨s, hs, x⟩
      · exact ⟨r.2, ⟨r, by simp, rfl, hp r (by simp)⟩, x.symm⟩
      · exact ⟨s.2, ⟨s, by simp [hs], rfl, hp s (by simp [hs])⟩, x.symm⟩
    · rintro _ ⟨_, ⟨s, hs, rfl, _⟩, rfl⟩
      rcases List.mem_cons.1 hs with rfl | hs
      · exact y
      · exact z s hs
  | .max =>
    dsimp only
    rw [after_cons]
    obtain ⟨x, y, z⟩ := after_max num cols (stepC (⟨.max, a.2.1, a.2.2, 0, 0, o.zero, true, true⟩ : Call D) r.1 (intOf (num (col r.2 (cols a.2.1))))) g rfl rfl
    simp only [List.mem_map, mem_expand]
    refine ⟨?_, ?_⟩
    · rcases x with x | ⟨s, hs, x⟩
      · exact ⟨r.2, ⟨r, by simp, rfl, hp r (by simp)⟩, x.symm⟩
      · exact ⟨s.2, ⟨s, by simp [hs], rfl, hp s (by simp [hs])⟩, x.symm⟩
    · rintro _ ⟨_, ⟨s, hs, rfl, _⟩, rfl⟩
      rcases List.mem_cons.1 hs with rfl | hs
      · exact y
      · exact z s hs

theorem perm_sum_int {l l' : List Int} (h : l.Perm l') : l.sum = l'.sum := by
  induction h with
  | nil => rfl
  | cons _ _ ih => simp [ih]
  | swap => simp [Int.add_left_comm]
  | trans _ _ a b => exact a.trans b

theorem isAggregate_perm {f : Fn} {l l' : List Int} {x : Int} (h : l.Perm l') (hx : Spec.IsAggregate f l x) : Spec.IsAggregate f l' x := by
  cases f <;> simp only [Spec.IsAggregate] at hx ⊢
  · rw [← h.length_eq]; exact hx
  · exact ⟨h.mem_iff.1 hx.1, fun y hy => hx.2 y (h.mem_iff.2 hy)⟩
  · exact ⟨h.mem_iff.1 hx.1, fun y hy => hx.2 y (h.mem_iff.2 hy)⟩
  · rw [← perm_sum_int h]; exact hx
  · rw [← perm_sum_int h, ← h.length_eq]; exact hx

theorem ltF_iff (gk : List Nat) (a b : Tup) : ltF gk a b = true ↔ Spec.key gk a < Spec.key gk b := by
  induction gk with
  | nil => simp [ltF, Spec.key]
  | cons g gk ih =>
    show _ ↔ (col a g :: Spec.key gk a) < (col b g :: Spec.key gk b)
    rw [List.cons_lt_cons_iff, ← ih]
    simp only [ltF]
    by_cases h1 : col a g < col b g
    · simp [h1]
    · by_cases h2 : col a g > col b g
      · simp [h1, h2]; omega
      · have : col a g = col b g := by omega
        simp [this]

theorem word_reads (x : Int) (h0 : 0 ≤ x) (h1 : x < 2 ^ 62) : Spec.readInt (word x) = some x := by
  obtain ⟨n, rfl⟩ := Int.eq_ofNat_of_zero_le h0
  have hn : n < 2 ^ 62 := by omega
  have e : word (n : Int) = 2 ^ 62 + n := by
    unfold word
    have : ((n : Int) % (2 ^ 64 : Int)).toNat = n := by omega
    rw [this, Nat.or_comm]
    exact (Nat.two_pow_add_eq_or_of_lt (i := 62) hn 1 ▸ rfl : (0x4000000000000000 ||| n) = 2 ^ 62 + n)
  unfold Spec.readInt
  rw [e, Nat.shiftRight_eq_div_pow]
  rw [if_pos (by omega)]
  congr 2
  omega
end Trident.Sparql
