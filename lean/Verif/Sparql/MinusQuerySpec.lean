import Verif.Sparql.UnionQuerySpec
/-!
# Specification of the answers of a query with MINUS
-/
namespace Trident.Sparql.PlanGen

/-- `SELECT projection { nodes filters MINUS { .. } MINUS { .. } .. } ORDER BY order`: the triple patterns and filters of the group, and those of the groups after MINUS. -/
structure MQuery where
  nodes : List Node
  filters : List Filt
  minuses : List (List Node × List Filt)
  projection : List Nat
  order : List Nat

namespace Spec

/-- Two solutions have a variable in common, and each common variable has the same value in both. -/
def excludes (c d : List (Analysis.PElem Nat × Nat)) : Bool :=
  (c.any fun e => match e.1 with
    | .var x => (value d x).isSome
    | .const _ => false) &&
  c.all fun e => match e.1 with
    | .var x => value d x == none || value d x == value c x
    | .const _ => true

/-- The solutions of the group that no solution of a group after MINUS excludes (SPARQL 1.1, section 18.5, Minus). -/
def minusSolutions (db : List Triple) (m : MQuery) : List (List (Analysis.PElem Nat × Nat)) :=
  (solutions db (m.nodes, m.filters)).filter fun c => m.minuses.all fun g => !(solutions db g).any (excludes c)

/-- The answers, with multiplicities. -/
def minusAnswers (db : List Triple) (m : MQuery) : List (List (Option Nat)) := (minusSolutions db m).map fun c => m.projection.map (value c)

end Spec
end Trident.Sparql.PlanGen
