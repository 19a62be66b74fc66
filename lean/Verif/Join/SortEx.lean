import Verif.Join.FinalProofs
/-! # A sort, for the examples -/
namespace Trident.Join

/-- Shorter keys first; keys of the same length in the order of `JoinSorter` and `DoubleJoinSorter`. -/
def keyLe (a b : List Nat) : Bool := decide (a.length < b.length) || (decide (a.length = b.length) && !keyLt b a)

def insKey (K : Nat → List Nat) (a : Nat) : List Nat → List Nat
  | [] => [a]
  | b :: l => if keyLe (K a) (K b) then a :: b :: l else b :: insKey K a l

/-- Insertion sort. -/
def insSort (K : Nat → List Nat) : List Nat → List Nat
  | [] => []
  | a :: l => insKey K a (insSort K l)

theorem keyLt_len {a b : List Nat} (h : keyLt a b = true) : a.length = b.length := by
  unfold keyLt at h
  split at h <;> simp_all

theorem keyLe_lt {a b : List Nat} (h : keyLe a b = true) : keyLt b a = false := by
  cases hk : keyLt b a with
  | false => rfl
  | true =>
    have := keyLt_len hk
    unfold keyLe at h
    simp [hk, this] at h

theorem keyLe_total (a b : List Nat) : keyLe a b = true ∨ keyLe b a = true := by
  unfold keyLe
  by_cases h : a.length = b.length
  · have : keyLt a b = false ∨ keyLt b a = false := by
      unfold keyLt
      split
      · simp; omega
      · rename_i x x' y y'
        by_cases hxy : x = y
        · subst hxy; simp; omega
        · simp [hxy, Ne.symm hxy]; omega
      · simp
    rcases this with h1 | h1 <;> simp [h, h1]
  · simp [h, Ne.symm h]; omega

theorem keyLe_trans {a b c : List Nat} (h1 : keyLe a b = true) (h2 : keyLe b c = true) : keyLe a c = true := by
  unfold keyLe at *
  simp only [Bool.or_eq_true, Bool.and_eq_true, decide_eq_true_eq, Bool.not_eq_true'] at *
  rcases h1 with h1 | ⟨h1, g1⟩
  · left; rcases h2 with h2 | ⟨h2, -⟩ <;> omega
  · rcases h2 with h2 | ⟨h2, g2⟩
    · left; omega
    · right
      refine ⟨by omega, ?_⟩
      match a, b, c, h1, h2, g1, g2 with
      | [], b, c, _, _, _, _ => rcases c with _ | ⟨u, _ | ⟨v, _ | _⟩⟩ <;> rfl
      | [x], [y], [z], _, _, g1, g2 =>
        simp only [keyLt, decide_eq_false_iff_not] at *
        omega
      | [x, x'], [y, y'], [z, z'], _, _, g1, g2 =>
        simp only [keyLt] at *
        by_cases e1 : y = x
        · by_cases e2 : z = y
          · subst e1 e2; simp only [if_pos, decide_eq_false_iff_not] at *; omega
          · subst e1; rw [if_neg e2] at g2 ⊢; exact g2
        · rw [if_neg e1, decide_eq_false_iff_not] at g1
          by_cases e2 : z = y
          · subst e2; rw [if_neg e1, decide_eq_false_iff_not]; exact g1
          · rw [if_neg e2, decide_eq_false_iff_not] at g2
            rw [if_neg (by omega), decide_eq_false_iff_not]
            omega
      | x :: x' :: x'' :: a, b, c, _, _, _, _ => rcases c with _ | ⟨u, _ | ⟨v, _ | _⟩⟩ <;> rfl

theorem insKey_perm (K : Nat → List Nat) (a : Nat) : ∀ l, (insKey K a l).Perm (a :: l)
  | [] => .refl _
  | b :: l => by
    unfold insKey
    by_cases h : keyLe (K a) (K b)
    · rw [if_pos h]
    · rw [if_neg h]
      exact ((insKey_perm K a l).cons b).trans (.swap a b l)

theorem insKey_sorted (K : Nat → List Nat) (a : Nat) : ∀ {l : List Nat}, l.Pairwise (fun x y => keyLe (K x) (K y) = true) → (insKey K a l).Pairwise (fun x y => keyLe (K x) (K y) = true)
  | [], _ => by simp [insKey]
  | b :: l, h => by
    unfold insKey
    have hb := (List.pairwise_cons.1 h)
    by_cases hk : keyLe (K a) (K b)
    · rw [if_pos hk]
      refine List.pairwise_cons.2 ⟨?_, h⟩
      intro y hy
      rcases List.mem_cons.1 hy with rfl | hy
      · exact hk
      · exact keyLe_trans hk (hb.1 y hy)
    · rw [if_neg hk]
      refine List.pairwise_cons.2 ⟨?_, insKey_sorted K a hb.2⟩
      intro y hy
      rcases List.mem_cons.1 ((insKey_perm K a l).mem_iff.1 hy) with rfl | hy
      · exact (keyLe_total _ _).resolve_left hk
      · exact hb.1 y hy

theorem insSort_sorts : SortsKeys insSort := by
  intro K l
  have : ∀ l, (insSort K l).Perm l ∧ (insSort K l).Pairwise (fun x y => keyLe (K x) (K y) = true) := by
    intro l
    induction l with
    | nil => exact ⟨.refl _, .nil⟩
    | cons a l ih => exact ⟨(insKey_perm K a _).trans (ih.1.cons a), insKey_sorted K a ih.2⟩
  exact ⟨(this l).1, (this l).2.imp fun h => keyLe_lt h⟩

end Trident.Join
