import Verif.Ml.Batch
/-!
# Batches of the triples that match a query

Model of `populateIndicesFromQuery` and its searches (/repo/src/trident/ml/batch.cpp:181-313).  A constant of the query that is -1 in the code is `none`.
-/
namespace Trident.Batch

/-- The indexes of the store. -/
inductive Order
  | spo | sop | pos | pso | osp | ops
deriving DecidableEq

/-- Where the first, second and third term of the index are in a record (batch.cpp:224-233, 254-263, 283-292). -/
def Order.offsets : Order → Nat × Nat × Nat
  | .spo => (0, 5, 10)
  | .sop => (0, 10, 5)
  | .pos => (5, 10, 0)
  | .pso => (5, 0, 10)
  | .osp => (10, 0, 5)
  | .ops => (10, 5, 0)

/-- The constant of the query for the term at an offset. -/
def want (s p o : Option Nat) (off : Nat) : Option Nat := if off = 0 then s else if off = 5 then p else o

/-- `Querier::getIndex` (/repo/src/trident/kb/querier.cpp:587-644) for ids and -1; `start` takes POS without a query (batch.cpp:326). -/
def indexFor (s p o : Option Nat) : Order :=
  if s.isSome then (if p.isSome then .spo else .sop)
  else if o.isSome then (if p.isSome then .ops else .osp)
  else if p.isSome then .pso
  else .pos

/-- The loops of `findFirstOccurrence` and `findLastOccurrence` (batch.cpp:181-216); `hi` is `end + 1`.  The first argument bounds the turns, `hi - start` are enough. -/
def search (raw : List Nat) (off x : Nat) (last : Bool) : Nat → Nat → Nat → Option Nat → Option (Option Nat)
  | 0, _, _, best => some best
  | f + 1, start, hi, best =>
    if start < hi then
      let middle := start + (hi - 1 - start) / 2
      match read5 raw (middle * 15 + off) with
      | none => none
      | some t =>
        if t < x then search raw off x last f (middle + 1) hi best
        else if x < t then search raw off x last f start middle best
        else if last then search raw off x last f (middle + 1) hi (some middle)
        else search raw off x last f start middle (some middle)
    else some best

/-- `findFirstOccurrence` with the given `end`, which is searched as well. -/
def findFirst (raw : List Nat) (off x start «end» : Nat) : Option (Option Nat) := search raw off x false («end» + 1 - start) start («end» + 1) none

/-- `findLastOccurrence`. -/
def findLast (raw : List Nat) (off x start «end» : Nat) : Option (Option Nat) := search raw off x true («end» + 1 - start) start («end» + 1) none

/-- A term of the query (batch.cpp:235-248, 264-278): the range that is left, and whether the term was found. -/
def narrow (raw : List Nat) (off x start «end» : Nat) : Option (Nat × Nat × Bool) :=
  match findFirst raw off x start «end» with
  | none => none
  | some none => some (0, 0, false)
  | some (some i) =>
    match findLast raw off x i «end» with
    | none => none
    | some none => some (i, 0, true)
    | some (some j) => some (i, if j < «end» then j + 1 else «end», true)

/-- The third term (batch.cpp:293-304). -/
def third (raw : List Nat) (off : Nat) (x : Option Nat) (start «end» : Nat) : Option (Nat × Nat) :=
  match x with
  | none => some (start, «end»)
  | some x =>
    match findFirst raw off x start «end» with
    | none => none
    | some none => some (0, 0)
    | some (some i) => some (i, i + 1)

/-- `populateIndicesFromQuery` (batch.cpp:219-313): the first index and the one after the last. -/
def queryRange (raw : List Nat) (order : Order) (s p o : Option Nat) : Option (Nat × Nat) :=
  let (o1, o2, o3) := order.offsets
  let n := raw.length / 15
  match want s p o o1 with
  | none => some (0, n)
  | some x1 =>
    match narrow raw o1 x1 0 n with
    | none => none
    | some (a, b, false) => some (a, b)
    | some (a, b, true) =>
      match want s p o o2 with
      | none => some (a, b)
      | some x2 =>
        match narrow raw o2 x2 a b with
        | none => none
        | some (a, b, false) => some (a, b)
        | some (a, b, true) => third raw o3 (want s p o o3) a b

/-- The vector `indices`. -/
def queryIndices (raw : List Nat) (s p o : Option Nat) : Option (List Nat) := (queryRange raw (indexFor s p o) s p o).map fun r => List.range' r.1 (r.2 - r.1)

end Trident.Batch
