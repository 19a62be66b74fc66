import Verif.Sparql.Analysis
/-!
# Specification of the answers of a query with triple patterns and filters
-/
namespace Trident.Sparql.PlanGen
open Analysis (PElem)

/-- A triple pattern with the ids of its constants (`QueryGraph::Node`, /repo/rdf3x/include/cts/infra/QueryGraph.hpp). -/
abbrev Node := PElem Nat × PElem Nat × PElem Nat

abbrev Triple := Nat × Nat × Nat

/-- A condition: its variables, whether it holds for values of the variables, and whether it can be evaluated for them; `none` is a variable without value. -/
structure Filt where
  vars : List Nat
  holds : (Nat → Option Nat) → Bool
  ok : (Nat → Option Nat) → Bool

/-- `QueryGraph` with one group of triple patterns and filters (`QueryGraph::SubQuery`), the projected variables, and those of ORDER BY. -/
structure Query where
  nodes : List Node
  filters : List Filt
  projection : List Nat
  order : List Nat

namespace Spec

/-- The elements of a pattern beside those of a triple. -/
def beside (n : Node) (t : Triple) : List (PElem Nat × Nat) := [(n.1, t.1), (n.2.1, t.2.1), (n.2.2, t.2.2)]

/-- All ways to put a triple beside each pattern. -/
def choices (db : List Triple) : List Node → List (List (PElem Nat × Nat))
  | [] => [[]]
  | n :: ns => db.flatMap fun t => (choices db ns).map (beside n t ++ ·)

/-- What stands beside the first occurrence of a variable. -/
def value (c : List (PElem Nat × Nat)) (x : Nat) : Option Nat :=
  c.findSome? fun e => match e.1 with
    | .var y => if y = x then some e.2 else none
    | .const _ => none

/-- Each constant stands beside itself, and each occurrence of a variable beside the same value. -/
def fits (c : List (PElem Nat × Nat)) : Bool :=
  c.all fun e => match e.1 with
    | .var x => value c x == some e.2
    | .const k => e.2 == k

/-- The answers, with multiplicities: a triple of the database for each pattern such that they fit and the filters hold. -/
def answers (db : List Triple) (q : Query) : List (List (Option Nat)) :=
  ((choices db q.nodes).filter fun c => fits c && q.filters.all fun f => f.holds (value c)).map fun c => q.projection.map (value c)

/-- A value that the variable has in a triple of the database that matches a pattern. -/
def Seen (db : List Triple) (nodes : List Node) (x v : Nat) : Prop :=
  ∃ n ∈ nodes, ∃ t ∈ db, fits (beside n t) = true ∧ value (beside n t) x = some v

/-- The condition can be evaluated whenever its variables have values that single patterns give them, and no value only if they are in no pattern. -/
def Safe (db : List Triple) (nodes : List Node) (f : Filt) : Prop :=
  ∀ g : Nat → Option Nat, (∀ x ∈ f.vars, (∀ v, g x = some v → Seen db nodes x v) ∧ (g x = none → ∀ n ∈ nodes, .var x ∉ [n.1, n.2.1, n.2.2])) → f.ok g = true

/-- The variable `x` of the pattern number `i` is projected, or is in ORDER BY, in a condition or in another pattern. -/
def Elsewhere (q : Query) (i x : Nat) : Prop :=
  x ∈ q.projection ∨ x ∈ q.order ∨ (∃ f ∈ q.filters, x ∈ f.vars) ∨ ∃ j n, j ≠ i ∧ q.nodes[j]? = some n ∧ .var x ∈ [n.1, n.2.1, n.2.2]

/-- No pattern with a constant has two variables that are nowhere else. -/
def Tied (q : Query) : Prop :=
  ∀ i n, q.nodes[i]? = some n → (∃ k, .const k ∈ [n.1, n.2.1, n.2.2]) → ∀ x y, x ≠ y → .var x ∈ [n.1, n.2.1, n.2.2] → .var y ∈ [n.1, n.2.1, n.2.2] →
    Elsewhere q i x ∨ Elsewhere q i y

end Spec
end Trident.Sparql.PlanGen
