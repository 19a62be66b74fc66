import Verif.Sparql.AggrScan
import Verif.Query.Terms
/-!
# Fully aggregated scans of an index

Model of `Scan` in /repo/rdf3x/src/rts/FullyAggregatedIndexScan.cpp (225-252) and of the class `TridentScan` (/repo/src/layers/TridentLayer.cpp:1067-1137) for scans that skip the last two
columns (`AGGR_SKIP_2LAST`), for which hints do nothing (1105-1108).  `getT idx` is `getTermList(idx)`.
-/
namespace Trident.Sparql.Scan
open PlanGen

/-- One call of `scan->first()` or `scan->next()` (TridentLayer.cpp:1112-1132). -/
def stepFully (o : Obj) (out : Int → Tup) (s : o.σ) : Step o.σ :=
  if (o.I.hasNext s).1 then
    .emit ((o.I.val (o.I.next (o.I.hasNext s).2)).2.toNat, out (o.I.val (o.I.next (o.I.hasNext s).2)).1) (o.I.next (o.I.hasNext s).2)
  else .stop

/-- The rows that the fully aggregated scan of the pattern `n` in the order `o` returns (`translateFullyAggregatedIndexScan`, /repo/rdf3x/src/cts/CodeGen.cpp:136-163,
`FullyAggregatedIndexScan::create`, FullyAggregatedIndexScan.cpp:155-224).  With a constant in the first slot there is an exception, see `Starts`. -/
inductive ReturnsFully (getT : Nat → Option Obj) (n : Node) (o : Ord) (names : List Nat) (rows : List Row) : Prop
  | mk (it : Obj) : constAt n (o.slots.getD 0 0) = none → getT (perm o).idx = some it →
      Runs (stepFully it fun k => names.map (slotValue n (scanSlots .fully o) (registers o (k, (0, 0))))) it.s rows → ReturnsFully getT n o names rows

end Trident.Sparql.Scan
