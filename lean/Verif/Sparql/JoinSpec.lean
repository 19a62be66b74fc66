import Verif.Sparql.Op
/-! # Specification of joins -/
namespace Trident.Sparql.Spec

/-- Two rows whose first columns are the join variable agree on it. -/
def agree (l r : Tup) : Bool := l.head? == r.head?

/-- The join of two lists of rows: all pairs of rows that agree, with the product of their multiplicities. -/
def join (left right : List Row) : List Row :=
  right.flatMap fun r => (left.filter fun l => agree l.2 r.2).map fun l => (l.1 * r.1, l.2 ++ r.2)

/-- The rows of `a` without a partner in `b`. -/
def unmatched (a b : List Row) : List Row := a.filter fun x => b.all fun y => !agree x.2 y.2

end Trident.Sparql.Spec
