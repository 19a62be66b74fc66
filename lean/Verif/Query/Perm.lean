import Verif.Spec
/-!
# Permutations and the choice of an index

Models /repo/src/trident/kb/querier.cpp (getIndex, getOrder, getInvOrder, the permutation arrays and
the `switch` statements in getIterator and getPermuted).  Indices are the numbers of
/repo/include/trident/kb/consts.h:45-50.
-/
namespace Trident

/-- consts.h:45-50: IDX_SPO .. IDX_PSO. -/
def Order.idx : Order → Nat
  | .spo => 0
  | .ops => 1
  | .pos => 2
  | .sop => 3
  | .osp => 4
  | .pso => 5

/-- querier.cpp:40-52 and 1264-1280: `getOrder(idx)`, an array of three positions. -/
def getOrder : Nat → List Nat
  | 0 => [0, 1, 2]
  | 1 => [2, 1, 0]
  | 2 => [1, 2, 0]
  | 3 => [0, 2, 1]
  | 4 => [2, 0, 1]
  | 5 => [1, 0, 2]
  | _ => []

/-- querier.cpp:40-52 and 1282-1298: `getInvOrder(idx)`. -/
def getInvOrder : Nat → List Nat
  | 0 => [0, 1, 2]
  | 1 => [2, 1, 0]
  | 2 => [2, 0, 1]
  | 3 => [0, 2, 1]
  | 4 => [1, 2, 0]
  | 5 => [1, 0, 2]
  | _ => []

/-- querier.cpp:586-643 `getIndex`.  A position is a term (`>= 0`), free (`-1`) or a join (`-2`). -/
def getIndex (s p o : Int) : Nat :=
  if s ≥ 0 then
    if p ≥ 0 ∨ (p = -2 ∧ o < 0) then 0 else 3
  else if o ≥ 0 then
    if p ≥ 0 ∨ p = -2 then 1 else 4
  else if p ≥ 0 then
    if o ≥ 0 ∨ o = -2 then 2 else 5
  else if s = -2 then
    if p ≠ -1 ∨ o = -1 then 0 else 3
  else if o = -2 then
    if p ≠ -1 ∨ s = -1 then 1 else 4
  else if p = -2 then
    if o ≠ -1 ∨ s = -1 then 2 else 5
  else 0

/-- querier.cpp:1025-1062: the `switch` in getIterator: (first, second, third) of (s, p, o). -/
def permute (idx : Nat) (s p o : Int) : Int × Int × Int :=
  match idx with
  | 0 => (s, p, o)
  | 1 => (o, p, s)
  | 2 => (p, o, s)
  | 3 => (s, o, p)
  | 4 => (o, s, p)
  | 5 => (p, s, o)
  | _ => (0, 0, 0)

/-- querier.cpp:687-705 `getPermuted`: the arguments (s, p, o) passed to getIterator for the elements
given in the order of the index. -/
def unpermute (idx : Nat) (el1 el2 el3 : Int) : Int × Int × Int :=
  match idx with
  | 0 => (el1, el2, el3)
  | 3 => (el1, el3, el2)
  | 2 => (el3, el1, el2)
  | 5 => (el2, el1, el3)
  | 4 => (el2, el3, el1)
  | 1 => (el3, el2, el1)
  | _ => (0, 0, 0)

end Trident
