/-!
# Operators of SPARQL queries

/repo/rdf3x/include/rts/operator/Operator.hpp: an operator produces rows by calls of `first()` and `next()`.  A call returns the number of times the row
occurs, or 0 at the end, and leaves the values of the row in registers.

In the model an input of an operator is the list of the rows it produces, and a row is the list of the values in its registers, in a fixed order.
The registers of an input hold its last row, as long as the operator does not change them itself.
-/
namespace Trident.Sparql

/-- The values of the registers of a row. -/
abbrev Tup := List Nat

/-- A row with the number of its occurrences. -/
abbrev Row := Nat × Tup

/-- How often the row `t` occurs. -/
def bag (l : List Row) (t : Tup) : Nat := (l.map fun r => if r.2 = t then r.1 else 0).sum

/-- The list with all occurrences. -/
def expand (l : List Row) : List Tup := l.flatMap fun r => List.replicate r.1 r.2

/-- One iteration of the loop of an operator: the end, another iteration, or a row that is returned. -/
inductive Step (σ : Type)
  | stop
  | go (s : σ)
  | emit (r : Row) (s : σ)

/-- The rows that an operator returns from the state `s` on. -/
inductive Runs {σ : Type} (step : σ → Step σ) : σ → List Row → Prop
  | stop {s} : step s = .stop → Runs step s []
  | go {s s' l} : step s = .go s' → Runs step s' l → Runs step s l
  | emit {s s' r l} : step s = .emit r s' → Runs step s' l → Runs step s (r :: l)

/-- There is one such list. -/
theorem Runs.unique {σ : Type} {step : σ → Step σ} {s : σ} {l l' : List Row} (h : Runs step s l) (h' : Runs step s l') : l = l' := by
  induction h generalizing l' with
  | stop e => cases h' with
    | stop => rfl
    | go e' => rw [e] at e'; cases e'
    | emit e' => rw [e] at e'; cases e'
  | go e _ ih => cases h' with
    | stop e' => rw [e] at e'; cases e'
    | go e' h => rw [e] at e'; cases e'; exact ih h
    | emit e' => rw [e] at e'; cases e'
  | emit e _ ih => cases h' with
    | stop e' => rw [e] at e'; cases e'
    | go e' => rw [e] at e'; cases e'
    | emit e' h => rw [e] at e'; cases e'; rw [ih h]

/-- At most `n` iterations, to compute examples. -/
def runFor {σ : Type} (step : σ → Step σ) : Nat → σ → Option (List Row)
  | 0, _ => none
  | n + 1, s =>
    match step s with
    | .stop => some []
    | .go s' => runFor step n s'
    | .emit r s' => (runFor step n s').map (r :: ·)

theorem runs_of_runFor {σ : Type} {step : σ → Step σ} (n : Nat) {s : σ} {l : List Row} (h : runFor step n s = some l) : Runs step s l := by
  induction n generalizing s l with
  | zero => cases h
  | succ n ih =>
    rw [runFor] at h
    match hs : step s with
    | .stop => rw [hs] at h; cases h; exact .stop hs
    | .go s' => rw [hs] at h; exact .go hs (ih h)
    | .emit r s' =>
      rw [hs] at h
      obtain ⟨l', h1, h2⟩ := Option.map_eq_some_iff.1 h
      subst h2
      exact .emit hs (ih h1)

theorem bag_nil (t : Tup) : bag [] t = 0 := rfl

theorem bag_cons (r : Row) (l : List Row) (t : Tup) : bag (r :: l) t = (if r.2 = t then r.1 else 0) + bag l t := by simp [bag]

theorem bag_append (l l' : List Row) (t : Tup) : bag (l ++ l') t = bag l t + bag l' t := by simp [bag]

theorem bag_perm {l l' : List Row} (h : l.Perm l') (t : Tup) : bag l t = bag l' t := (h.map _).sum_nat

theorem bag_pos {l : List Row} {t : Tup} : 0 < bag l t ↔ ∃ r ∈ l, r.2 = t ∧ 0 < r.1 := by
  induction l with
  | nil => simp [bag]
  | cons r l ih =>
    rw [bag_cons]
    constructor
    · intro h
      by_cases hr : r.2 = t
      · by_cases h0 : 0 < r.1
        · exact ⟨r, by simp, hr, h0⟩
        · rw [if_pos hr] at h
          obtain ⟨r', a, b⟩ := ih.1 (by omega)
          exact ⟨r', List.mem_cons_of_mem _ a, b⟩
      · rw [if_neg hr] at h
        obtain ⟨r', a, b⟩ := ih.1 (by omega)
        exact ⟨r', List.mem_cons_of_mem _ a, b⟩
    · rintro ⟨r', a, b, c⟩
      rcases List.mem_cons.1 a with rfl | a
      · rw [if_pos b]; omega
      · have := ih.2 ⟨r', a, b, c⟩; omega

theorem count_expand (l : List Row) (t : Tup) : (expand l).count t = bag l t := by
  induction l with
  | nil => rfl
  | cons r l ih =>
    rw [bag_cons, ← ih]
    simp only [expand, List.flatMap_cons, List.count_append, List.count_replicate, beq_iff_eq]

end Trident.Sparql
