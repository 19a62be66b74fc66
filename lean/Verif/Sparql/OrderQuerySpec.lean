import Verif.Sparql.OrderBySpec
import Verif.Sparql.QueryTextSpec
/-!
# The order of lines

The lines of a query with ORDER BY, followed by the values of its keys.
-/
namespace Trident.Sparql.Parse.Spec

open Lex OrderBy.Spec

/-- The cells of a line. -/
def lineCells (r : List (Option Text)) (i : Nat) : Cell :=
  match r[i]? with
  | some (some t) => .text t
  | _ => .unbound

/-- The keys are in the columns `n`, `n + 1`, ... -/
def orderOf : Nat → List SKey → List (Nat × Bool)
  | _, [] => []
  | n, k :: ks => (n, k.descending) :: orderOf (n + 1) ks

/-- No line comes after one that it should come before.  The keys are in the columns `n`, `n + 1`, ... -/
def InOrder (n : Nat) (ks : List SKey) (l : List (List (Option Text))) : Prop :=
  l.Pairwise fun a b => ¬ Before (orderOf n ks) (lineCells b) (lineCells a)

end Trident.Sparql.Parse.Spec
