import Verif.Sparql.PlanSpec
/-!
# Specification of the answers of a query with UNION
-/
namespace Trident.Sparql.PlanGen

/-- `SELECT projection { { .. } UNION { .. } UNION ..  FILTER .. } ORDER BY order`: the alternatives, each with its triple patterns and filters, and the filters of the group. -/
structure UQuery where
  parts : List (List Node × List Filt)
  filters : List Filt
  projection : List Nat
  order : List Nat

namespace Spec

/-- A variable occurs in a triple pattern of the group. -/
def In (x : Nat) (nodes : List Node) : Prop := ∃ n ∈ nodes, .var x ∈ [n.1, n.2.1, n.2.2]

instance decElem : DecidableEq (Analysis.PElem Nat)
  | .var x, .var y => if h : x = y then .isTrue (h ▸ rfl) else .isFalse fun e => h (by cases e; rfl)
  | .const x, .const y => if h : x = y then .isTrue (h ▸ rfl) else .isFalse fun e => h (by cases e; rfl)
  | .var _, .const _ => .isFalse nofun
  | .const _, .var _ => .isFalse nofun

instance (x : Nat) (nodes : List Node) : Decidable (In x nodes) := inferInstanceAs (Decidable (∃ n ∈ nodes, _))

/-- The solutions of one alternative: a triple of the database for each pattern such that they fit and the filters hold. -/
def solutions (db : List Triple) (p : List Node × List Filt) : List (List (Analysis.PElem Nat × Nat)) :=
  (choices db p.1).filter fun c => fits c && p.2.all fun f => f.holds (value c)

/-- The solutions of a union are those of all alternatives; the filters of the group are conditions for each of them. -/
def unionSolutions (db : List Triple) (u : UQuery) : List (List (Analysis.PElem Nat × Nat)) :=
  (u.parts.flatMap (solutions db)).filter fun c => u.filters.all fun f => f.holds (value c)

/-- The answers, with multiplicities.  `none` is a variable that the alternative does not have. -/
def unionAnswers (db : List Triple) (u : UQuery) : List (List (Option Nat)) := (unionSolutions db u).map fun c => u.projection.map (value c)

/-- The variable is in no alternative or in all of them. -/
def Everywhere (u : UQuery) (x : Nat) : Prop := (∃ p ∈ u.parts, In x p.1) → ∀ p ∈ u.parts, In x p.1

end Spec
end Trident.Sparql.PlanGen
