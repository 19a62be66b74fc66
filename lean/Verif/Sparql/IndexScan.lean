import Verif.Sparql.PlanGen
import Verif.Join.Scan
/-!
# Scans of an index

Model of /repo/rdf3x/src/rts/IndexScan.cpp and of the class `TridentScan` (/repo/src/layers/TridentLayer.cpp:1067-1221) for scans without aggregation (`AGGR_NO`) and
without hints.  For hints see `Sparql/Hint.lean`.  The iterators are those of the querier: `get idx s p o` is `getIterator(idx, s, p, o)`.
-/
namespace Trident.Sparql.Scan
open PlanGen

/-- `TridentLayer::getScan` (TridentLayer.cpp:831-865): the permutation of an order. -/
def perm : Ord → Order
  | .sop => .sop
  | .spo => .spo
  | .pos => .pos
  | .pso => .pso
  | .ops => .ops
  | .osp => .osp

/-- The operators of IndexScan.cpp.  The values are the fields `stop1`, `stop2`, `stop3`, `filter2` and `filter3`, which `first()` reads from the registers of the constants. -/
inductive Op
  | scan
  | filter2 (f2 : Nat)
  | filter3 (f3 : Nat)
  | filter23 (f2 f3 : Nat)
  | prefix1 (s1 : Nat)
  | prefix1Filter3 (s1 f3 : Nat)
  | prefix12 (s1 s2 : Nat)
  | prefix123 (s1 s2 s3 : Nat)
  deriving DecidableEq, Repr

/-- `IndexScan::create` (IndexScan.cpp:377-401): the operator for the bound registers, in the order of the index. -/
def create : Option Nat → Option Nat → Option Nat → Op
  | none, none, none => .scan
  | none, none, some c => .filter3 c
  | none, some b, none => .filter2 b
  | none, some b, some c => .filter23 b c
  | some a, none, none => .prefix1 a
  | some a, none, some c => .prefix1Filter3 a c
  | some a, some b, none => .prefix12 a b
  | some a, some b, some c => .prefix123 a b c

/-- The call of `getPermuted` in `first()` (IndexScan.cpp:408-634 with TridentLayer.cpp:1127-1138 and 1184-1202).  In `getPermuted(perm, -1, -1, -1, false)`
(querier.cpp:707-772) the last argument has no effect, as no value is constrained; if it returns NULL, it calls `getIterator` again with constraints. -/
def Op.elements : Op → Int × Int × Int
  | .scan => (-1, -1, -1)
  | .filter2 _ => (-1, -1, -1)
  | .filter3 _ => (-1, -1, -1)
  | .filter23 _ _ => (-1, -1, -1)
  | .prefix1 a => (a, -1, -1)
  | .prefix1Filter3 a _ => (a, -1, -1)
  | .prefix12 a b => (a, b, -1)
  | .prefix123 a b c => (a, b, c)

/-- What an operator does with a row of the iterator: it ends, skips the row, or returns it. -/
inductive Verdict
  | stop
  | skip
  | row

/-- The tests of `first()` and `next()` (IndexScan.cpp:408-634); they are the same in both. -/
def Op.check (r : Row3) : Op → Verdict
  | .scan => .row
  | .filter2 f => if r.2.1 ≠ f then .skip else .row
  | .filter3 f => if r.2.2 ≠ f then .skip else .row
  | .filter23 f g => if r.2.1 ≠ f ∨ r.2.2 ≠ g then .skip else .row
  | .prefix1 a => if r.1 > a then .stop else .row
  | .prefix1Filter3 a g => if r.1 > a then .stop else if r.2.2 ≠ g then .skip else .row
  | .prefix12 a b => if r.1 > a ∨ (r.1 = a ∧ r.2.1 > b) then .stop else .row
  | .prefix123 a b c => if r.1 > a ∨ (r.1 = a ∧ (r.2.1 > b ∨ (r.2.1 = b ∧ r.2.2 > c))) then .stop else .row

/-- The registers of subject, predicate and object: `IndexScan::create` (IndexScan.cpp:321-376) assigns the values of the index to them. -/
def registers : Ord → Row3 → PlanGen.Triple
  | .spo, r => (r.1.toNat, r.2.1.toNat, r.2.2.toNat)
  | .sop, r => (r.1.toNat, r.2.2.toNat, r.2.1.toNat)
  | .pso, r => (r.2.1.toNat, r.1.toNat, r.2.2.toNat)
  | .pos, r => (r.2.2.toNat, r.1.toNat, r.2.1.toNat)
  | .osp, r => (r.2.1.toNat, r.2.2.toNat, r.1.toNat)
  | .ops, r => (r.2.2.toNat, r.2.1.toNat, r.1.toNat)

/-- One call of `scan->first()` or `scan->next()` (TridentLayer.cpp:1087-1125, 1127-1138, 1184-1213) and the test; a row that is returned has the count 1, and `out` reads its
registers. -/
def step (o : Obj3) (op : Op) (out : Row3 → Tup) (s : o.σ) : Step o.σ :=
  if (o.I.hasNext s).1 then
    match op.check (o.I.val (o.I.next (o.I.hasNext s).2)) with
    | .stop => .stop
    | .skip => .go (o.I.next (o.I.hasNext s).2)
    | .row => .emit (1, out (o.I.val (o.I.next (o.I.hasNext s).2))) (o.I.next (o.I.hasNext s).2)
  else .stop

/-- The constant at a slot, in the register that is marked as bound (`resolveScanVariable`, /repo/rdf3x/src/cts/CodeGen.cpp:53-75, without context). -/
def constAt (n : Node) (s : Nat) : Option Nat :=
  match n.slot s with
  | .const c => some c
  | .var _ => none

/-- The operator for a pattern (`translateIndexScan`, CodeGen.cpp:90-114). -/
def opFor (n : Node) (o : Ord) : Op := create (constAt n (o.slots.getD 0 0)) (constAt n (o.slots.getD 1 0)) (constAt n (o.slots.getD 2 0))

/-- The iterator that the operator asks the querier for (`getPermuted`, querier.cpp:689-773). -/
def open' (get : Nat → Int → Int → Int → QRes) (o : Ord) (op : Op) : QRes :=
  let e := unpermute (perm o).idx op.elements.1 op.elements.2.1 op.elements.2.2
  get (perm o).idx e.1 e.2.1 e.2.2

/-- The rows that the scan of the pattern `n` in the order `o` returns, with the registers of the variables `names`. -/
inductive Returns (get : Nat → Int → Int → Int → QRes) (n : Node) (o : Ord) (names : List Nat) (rows : List Row) : Prop
  | mk (it : Obj3) : open' get o (opFor n o) = .itr it →
      Runs (step it (opFor n o) fun r => names.map (slotValue n o.slots (registers o r))) it.s rows → Returns get n o names rows

end Trident.Sparql.Scan
