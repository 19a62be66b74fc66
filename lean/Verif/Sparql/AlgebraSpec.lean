import Verif.Sparql.Op
/-!
# Specification of the operators of the SPARQL algebra

A solution is a number of occurrences and the values of the variables; `none` says that a variable is not bound.
-/
namespace Trident.Sparql.Spec

/-- A solution. -/
abbrev Sol := Nat × (Nat → Option Nat)

/-- The solutions of a union are those of its parts. -/
def union (parts : List (List Sol)) : List Sol := parts.flatten

/-- A row for the variables `vars`, in which a number stands for an unbound variable. -/
def row (null : Nat) (vars : List Nat) (s : Sol) : Row := (s.1, vars.map fun v => (s.2 v).getD null)

/-- How often a value occurs. -/
def times (l : List (Nat × Nat)) (v : Nat) : Nat := (l.map fun x => if x.2 = v then x.1 else 0).sum

end Trident.Sparql.Spec
