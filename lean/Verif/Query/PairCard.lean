import Verif.Query.KB
/-!
# Cardinality of a lookup with two fixed values

`getCardOnIndex` with one free position asks the iterator it got for its `getCardinality` after a call of `hasNext` (querier.cpp:155-156,193-201).  This models the call on
the iterators of a stored graph: the tables (newrowtable.h, newclustertable.h, newcolumntable.h) and the rebuilt tables (arrayitr.cpp:200-230).
-/
namespace Trident

/-- `getCardinality` of a table of any layout; `none` is undefined behaviour. -/
def Strat.Tab.card (m : Mem) : Strat.Tab → Option Int
  | .row w1 w2 s => some (Row.getCardinality w1 w2 m s).1
  | .cluster w1 w2 wc s => (Cluster.getCardinality w1 w2 wc m s).map (·.1)
  | .column s => some (Column.getCardinality s : Int)

/-- querier.cpp:156,198 on a stored table: 0 when there is no element. -/
def KB.openTabCard (kb : KB) (e : Coord) (v1 v2 : Int) : Option Int :=
  match Strat.decode e.strat with
  | some L =>
    let h := (Strat.Tab.itr kb.mem).hasNext (Strat.openTab kb.mem e.start e.stop L (optOf v1) (optOf v2))
    if h.1 then h.2.card kb.mem else some 0
  | none => some 0

/-- querier.cpp:156,198 on a table rebuilt from the other order (`newItrOnReverse`, querier.cpp:1243-1263). -/
def reverseCard (sort : List (Nat × Nat) → List (Nat × Nat)) (fuel : Nat) (old : Obj) (v1 v2 : Int) : Option Int :=
  let tmp := reversed v1 (drain old.I fuel old.s)
  if tmp.length > 0 then
    let h := (Arr.itr (sort tmp)).hasNext (Arr.init (sort tmp) v1 v2)
    if h.1 then some (Arr.getCardinality (sort tmp) h.2 : Int) else some 0
  else some 0

/-- The two above for `Querier::get` (querier.cpp:918-955). -/
def KB.pairCard (kb : KB) (E : Env) (idx : Nat) (cs : Nat → Option Coord) (v1 v2 : Int) : Option Int :=
  match cs idx with
  | some e => kb.openTabCard e v1 v2
  | none =>
    if idx ≥ 3 then
      match cs (idx - 3) with
      | some e => reverseCard E.sortP E.fuel (kb.openTab e (-1) (-1)) v1 v2
      | none => some 0
    else some 0

/-- querier.cpp:155-156,193-201: `getCardOnIndex(idx, s, p, o)` on a stored graph, for a pattern with one free position. -/
def KB.cardTwo (kb : KB) (E : Env) (idx : Nat) (s p o : Int) : Option Int :=
  if kb.present idx ∨ (idx ≥ 3 ∧ kb.present (idx - 3)) then
    let t := permute idx s p o
    if t.1 ≥ 0 then
      match kb.coords t.1 with
      | some cs => kb.pairCard E idx cs t.2.1 t.2.2
      | none => some 0
    else none
  else none

end Trident
