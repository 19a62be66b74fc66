import Verif.Sparql.IndexScan
/-!
# Aggregated scans of an index

Model of /repo/rdf3x/src/rts/AggregatedIndexScan.cpp and of the class `TridentScan` (/repo/src/layers/TridentLayer.cpp:1067-1221) for scans that skip the last column
(`AGGR_SKIP_LAST`), without hints.  `getD idx s p o` is `getIterator(idx, s, p, o)` followed by `ignoreSecondColumn()`.
-/
namespace Trident.Sparql.Scan
open PlanGen

/-- The operator for a pattern (`translateAggregatedIndexScan`, /repo/rdf3x/src/cts/CodeGen.cpp:116-134, and `AggregatedIndexScan::create`, AggregatedIndexScan.cpp:221-293).  The four
operators `Scan`, `ScanFilter2`, `ScanPrefix1` and `ScanPrefix12` do the same tests as the operators of IndexScan.cpp with these names (AggregatedIndexScan.cpp:295-405), and ask for the
same elements (TridentLayer.cpp:1127-1138 and 1157-1182). -/
def opForAggr (n : Node) (o : Ord) : Op := create (constAt n (o.slots.getD 0 0)) (constAt n (o.slots.getD 1 0)) none

/-- One call of `scan->first()` or `scan->next()` (TridentLayer.cpp:1087-1125, 1127-1138, 1157-1182) and the test; a row that is returned has the count of the iterator
(`getCount`, TridentLayer.cpp:1083-1085). -/
def stepAggr (o : Obj3) (op : Op) (out : Row3 → Tup) (s : o.σ) : Step o.σ :=
  if (o.I.hasNext s).1 then
    match op.check (o.I.val (o.I.next (o.I.hasNext s).2)) with
    | .stop => .stop
    | .skip => .go (o.I.next (o.I.hasNext s).2)
    | .row => .emit ((o.I.val (o.I.next (o.I.hasNext s).2)).2.2.toNat, out (o.I.val (o.I.next (o.I.hasNext s).2))) (o.I.next (o.I.hasNext s).2)
  else .stop

/-- The registers after a row: the third one is not assigned. -/
def registersAggr (o : Ord) (r : Row3) : PlanGen.Triple := registers o (r.1, (r.2.1, 0))

/-- The rows that the aggregated scan of the pattern `n` in the order `o` returns, with the registers of the variables `names`. -/
inductive ReturnsAggr (getD : Nat → Int → Int → Int → QRes) (n : Node) (o : Ord) (names : List Nat) (rows : List Row) : Prop
  | mk (it : Obj3) : open' getD o (opForAggr n o) = .itr it →
      Runs (stepAggr it (opForAggr n o) fun r => names.map (slotValue n (scanSlots .aggr o) (registersAggr o r))) it.s rows → ReturnsAggr getD n o names rows

end Trident.Sparql.Scan
