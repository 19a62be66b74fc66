/-!
# Values of a column that are not in another one

Models `NewColumnTable::columnNotIn` and its four loops (/repo/src/trident/binarytables/newcolumntable.cpp:213-451).
Simplified: a column is the list of its decoded values; how the values stand in the bytes is in `Verif.Tables.Column`.
-/
namespace Trident.NotIn

/-- The part of a `NewColumnTable` that is read here: the distinct first terms (`startpos1` to `startpos2`), and the second terms of the current first term (`startblock2`, `currentCount`). -/
structure Table where
  firsts : List Nat
  seconds : List Nat

/-- What the call does. -/
inductive Res
  /-- `throw 10`. -/
  | throws
  /-- A value is read from a column that has none. -/
  | undefined
  /-- The values added to `output`. -/
  | wrote (l : List Nat)
deriving DecidableEq

/-- What comes after the loop (newcolumntable.cpp:305-315): the value at hand and those after it, or only the first. -/
def rest (stop : Bool) (l : List Nat) : List Nat := if stop then l.take 1 else l

/-- The loop, and what comes after it (newcolumntable.cpp:279-315, and the same with other strides at 324-360, 369-405 and 414-450).
The lists are the values from `begin1` and from `begin2` on. -/
def merge (stop : Bool) : List Nat → List Nat → List Nat
  | [], _ => []
  | a :: as, [] => rest stop (a :: as)
  | a :: as, b :: bs =>
    if a ≤ b then
      if a < b then
        if stop then a :: rest stop (a :: as) else a :: merge stop as (b :: bs)
      else merge stop as (b :: bs)
    else merge stop (a :: as) bs
termination_by x y => x.length + y.length

/-- The column that is meant by a number. -/
def Table.column (t : Table) : Nat → Option (List Nat)
  | 1 => some t.firsts
  | 2 => some t.seconds
  | _ => none

/-- `columnNotIn` (newcolumntable.cpp:213-259).  The first value of both columns is read before the loop. -/
def columnNotIn (t : Table) (columnId : Nat) (other : Table) (columnOther : Nat) (stop : Bool) : Res :=
  match t.column columnId, other.column columnOther with
  | some l, some m => if l = [] ∨ m = [] then .undefined else .wrote (merge stop l m)
  | _, _ => .throws

end Trident.NotIn
