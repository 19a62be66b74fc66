import Verif.Spec
/-!
# Histories that can be merged

Conditions on a history of requests, used in the statements about merging updates (C26).
-/
namespace Trident

/-- Every request that changes the graph brings a subject into it, or removes one completely. -/
def SubjectsChange : (Triple → Prop) → List Update → Prop
  | _, [] => True
  | P, u :: us =>
    ((∀ t, holdsAfter P [u] t ↔ P t) ∨ ∃ k, ¬ ((∃ t, P t ∧ t.s = k) ↔ ∃ t, holdsAfter P [u] t ∧ t.s = k)) ∧
    SubjectsChange (holdsAfter P [u]) us

/-- No triple of the stored graph `g` is added at a moment when it does not hold, i.e. after it was deleted. -/
def NeverBack (g : List Triple) : (Triple → Prop) → List Update → Prop
  | _, [] => True
  | P, u :: us => (∀ ts, u = .add ts → ∀ t ∈ ts, t ∈ g → P t) ∧ NeverBack g (holdsAfter P [u]) us

end Trident
