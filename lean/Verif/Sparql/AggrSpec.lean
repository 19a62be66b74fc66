import Verif.Sparql.Aggr
/-! # Specification of GROUP BY and aggregates -/
namespace Trident.Sparql

namespace Spec

/-- The values of the group variables, which are the columns `gk`, in a solution. -/
def key (gk : List Nat) (t : Tup) : List Nat := gk.map fun i => t.getD i 0

/-- The solutions, with their multiplicities, of the group with the key `k`. -/
def group (gk : List Nat) (rows : List Row) (k : List Nat) : List Tup := (expand rows).filter fun t => key gk t == k

/-- The result of a function for the values `vals` of its argument in a group.  The average is only required when it is an integer. -/
def IsAggregate (f : Fn) (vals : List Int) (x : Int) : Prop :=
  match f with
  | .count => x = vals.length
  | .sum => x = vals.sum
  | .avg => (∃ q : Int, q * vals.length = vals.sum) → x * vals.length = vals.sum
  | .min => x ∈ vals ∧ ∀ y ∈ vals, x ≤ y
  | .max => x ∈ vals ∧ ∀ y ∈ vals, y ≤ x

/-- The number that a value of a register is, when its two highest bits are those of integers (/repo/include/trident/kb/dictmgmt.h:40, 213-221). -/
def readInt (w : Nat) : Option Int := if w >>> 62 = 1 then some ((w % 2 ^ 62 : Nat) : Int) else none

end Spec

end Trident.Sparql
