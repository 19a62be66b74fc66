import Verif.Tables.RowProofs
import Verif.Tables.ClusterProofs
import Verif.Tables.ColumnProofs
/-!
# Choice of the layout and signature byte (`StorageStrat`)

/repo/include/trident/binarytables/storagestrat.h and
/repo/src/trident/binarytables/storagestrat.cpp.  An `unsigned` signature is a `Nat`;
the `char` in which it is stored keeps its low eight bits.
-/
namespace Trident.Strat

/-- consts.h:55 (`NEWCOLUMN_ITR`). -/
def NEWCOLUMN : Nat := 3
/-- consts.h:56 (`NEWROW_ITR`). -/
def NEWROW : Nat := 4
/-- consts.h:57 (`NEWCLUSTER_ITR`). -/
def NEWCLUSTER : Nat := 5

/-- storagestrat.h:169-171. -/
def setStorageType (sig type : Nat) : Nat := sig ||| (type <<< 5)
/-- storagestrat.h:173-175. -/
def setBytesField1 (sig n : Nat) : Nat := sig ||| (n <<< 3)
/-- storagestrat.h:177-179. -/
def setBytesField2 (sig n : Nat) : Nat := sig ||| (n <<< 1)
/-- storagestrat.h:144-150, `aggregate = true`. -/
def setAggregated (sig : Nat) : Nat := sig ||| 1
/-- storagestrat.h:202-204; the `char` is sign extended, which the mask removes. -/
def getStorageType (sig : Nat) : Nat := (sig >>> 5) &&& 7
/-- storagestrat.h:164-167. -/
def isAggregated (sig : Nat) : Bool := sig &&& 1 ≠ 0 && getStorageType sig ≠ NEWCLUSTER

/-- A physical table layout with the widths of its fields. -/
inductive Layout
  | row (w1 w2 : Width)
  | cluster (w1 w2 wc : Width)
  | column
  deriving DecidableEq, Repr

/-- factorytables.h:`FactoryNewRowTable::get`, `FactoryNewClusterTable::get` and the switches
of newrowtableinserter.cpp:36-72, newclustertableinserter.cpp:59-92: the field
type of a flag.  Flag 4 (the 8-byte field) exists only for the second field of a row. -/
def flagWidth : Nat → Width
  | 0 => .b1 | 1 => .b2 | 2 => .b4 | 3 => .b5 | _ => .b8

/-- storagestrat.cpp:54-78 `getBinaryTable` and, with the same tests, 80-127
`getBinaryTableInserter`: the reader and the writer of a signature. The old layouts, which
only have writers, are not modelled (`none`: the reader throws). -/
def decode (sig : Nat) : Option Layout :=
  let t := getStorageType sig
  if t = NEWCOLUMN then some .column
  else if t = NEWROW then
    let n1 := (sig >>> 3) &&& 3
    let n2 := if isAggregated sig then 4 else (sig >>> 1) &&& 3
    some (.row (flagWidth n1) (flagWidth n2))
  else if t = NEWCLUSTER then
    let n1 := (sig >>> 3) &&& 3
    let n2 := (sig >>> 1) &&& 3
    some (.cluster (flagWidth n1) (flagWidth n2) (if sig &&& 1 ≠ 0 then .b4 else .b1))
  else none

/-- storagestrat.cpp:130-148 `getStrategy` for the current layouts (the old ones, 134-138, are
not modelled). Both fields are set from `compr1`. -/
def getStrategy (type compr1 _compr2 : Nat) (aggre : Bool) : Nat :=
  let s := setBytesField2 (setBytesField1 (setStorageType 0 type) compr1) compr1
  (if aggre then setAggregated s else s) % 256

/-- storagestrat.cpp:27-48 `getStrat5`, `getStrat6`, `getStrat7` (the fixed strategies). -/
def strat5 : Nat := setStorageType 0 NEWCOLUMN
@[inherit_doc strat5] def strat6 : Nat :=
  setBytesField2 (setBytesField1 (setStorageType 0 NEWROW) 3) 3
@[inherit_doc strat5] def strat7 : Nat :=
  setBytesField2 (setBytesField1 (setStorageType 0 NEWCLUSTER) 3) 3 ||| 1

/-- The variables of the loop at storagestrat.cpp:339-361. -/
structure Scan where
  max1 : Nat := 0
  max2 : Nat := 0
  ngroups : Nat := 0
  maxGroup : Nat := 0
  curGroup : Nat := 0
  prev : Int := -1

/-- storagestrat.cpp:347-360, one round of the loop. -/
def Scan.step (s : Scan) (p : Nat × Nat) : Scan :=
  let m1 := if p.1 > s.max1 then p.1 else s.max1
  let m2 := if p.2 > s.max2 then p.2 else s.max2
  let new : Bool := (p.1 : Int) ≠ s.prev
  let cur := (if new then 0 else s.curGroup) + 1
  { max1 := m1
    max2 := m2
    ngroups := if new then s.ngroups + 1 else s.ngroups
    maxGroup := if cur > s.maxGroup then cur else s.maxGroup
    curGroup := cur
    prev := if new then p.1 else s.prev }

/-- storagestrat.cpp:374-381 (and 383-390). -/
def flag (nbytes : Nat) : Nat :=
  if nbytes = 1 then 0 else if nbytes = 2 then 1 else if nbytes < 5 then 2 else 3

/-- consts.h:97 (`THRESHOLD_KEEP_MEMORY`). -/
def THRESHOLD : Nat := 1000 * 1024

/-- storagestrat.cpp:331-423 `determineStrategy` (the statistics counters are not modelled). -/
def determine (l : List (Nat × Nat)) (nTermsClusterColumn : Nat) (useRowForLargeTables : Bool) :
    Nat :=
  let sig :=
    if l.length < THRESHOLD then
      let s := l.foldl Scan.step {}
      if s.ngroups ≥ nTermsClusterColumn then setStorageType 0 NEWCOLUMN
      else
        let nbc := if s.maxGroup ≤ 255 then 1 else 4
        let nb1 := nbytes s.max1
        let nb2 := nbytes s.max2
        let spaceRow := l.length * (nb1 + nb2)
        let spaceCluster := s.ngroups * (nb1 + nbc) + nb2
        if spaceRow < spaceCluster then
          setBytesField2 (setBytesField1 (setStorageType 0 NEWROW) (flag nb1)) (flag nb2)
        else
          let g := setBytesField2 (setBytesField1 (setStorageType 0 NEWCLUSTER) (flag nb1)) (flag nb2)
          if nbc > 1 then g ||| 1 else g
    else if useRowForLargeTables then
      setBytesField2 (setBytesField1 (setStorageType 0 NEWROW) 3) 3
    else setStorageType 0 NEWCOLUMN
  sig % 256

/-- storagestrat.cpp:237-256 `determineAggregatedStrategy`. -/
def determineAggregated (l : List (Nat × Nat)) : Bool :=
  let unique := 1 + ((l.zip l.tail).filter fun (p, q) => p.1 ≠ q.1).length
  decide (unique ≤ l.length / 10)

/-! ## A table of any layout -/

/-- The bytes the inserter of a layout writes; `thr` is the offload threshold of the column
inserter. -/
def Layout.encode (thr : Nat) : Layout → List (Nat × Nat) → List UInt8
  | .row w1 w2, l => Row.encode w1 w2 l
  | .cluster w1 w2 wc, l => Cluster.encode w1 w2 wc l
  | .column, l => Column.encode thr l

/-- An open iterator of any of the three classes (a `PairItr *`). -/
inductive Tab
  | row (w1 w2 : Width) (s : Row.St)
  | cluster (w1 w2 wc : Width) (s : Cluster.St)
  | column (s : Column.St)

/-- The virtual calls `hasNext`, `next`, `getValue1`, `getValue2` of `PairItr`. -/
def Tab.itr (m : Mem) : Itr Tab Pair where
  hasNext
    | .row w1 w2 s => let r := (Row.itr w1 w2 m).hasNext s; (r.1, .row w1 w2 r.2)
    | .cluster w1 w2 wc s => let r := (Cluster.itr w1 w2 wc m).hasNext s; (r.1, .cluster w1 w2 wc r.2)
    | .column s => let r := (Column.itr m).hasNext s; (r.1, .column r.2)
  next
    | .row w1 w2 s => .row w1 w2 ((Row.itr w1 w2 m).next s)
    | .cluster w1 w2 wc s => .cluster w1 w2 wc ((Cluster.itr w1 w2 wc m).next s)
    | .column s => .column ((Column.itr m).next s)
  val
    | .row w1 w2 s => (Row.itr w1 w2 m).val s
    | .cluster w1 w2 wc s => (Cluster.itr w1 w2 wc m).val s
    | .column s => (Column.itr m).val s

/-- querier.cpp:645-685 (`initNewIterator` with `setConstraints`): the iterator over all pairs, over the pairs with
first value `c1`, or over the pair `(c1, c2)`. -/
def openTab (m : Mem) (a e : Nat) : Layout → Option Int → Option Int → Tab
  | .row w1 w2, none, _ => .row w1 w2 (Row.setup a e)
  | .row w1 w2, some c1, none => .row w1 w2 (Row.setupC1 w1 w2 m c1 a e)
  | .row w1 w2, some c1, some c2 => .row w1 w2 (Row.setupC12 w1 w2 m c1 c2 a e)
  | .cluster w1 w2 wc, none, _ => .cluster w1 w2 wc (Cluster.setup a e)
  | .cluster w1 w2 wc, some c1, none => .cluster w1 w2 wc (Cluster.setupC1 w1 w2 wc m c1 a e)
  | .cluster w1 w2 wc, some c1, some c2 => .cluster w1 w2 wc (Cluster.setupC12 w1 w2 wc m c1 c2 a e)
  | .column, none, _ => .column (Column.setup m a e)
  | .column, some c1, none => .column (Column.setupC1 m c1 a e)
  | .column, some c1, some c2 => .column (Column.setupC12 m c1 c2 a e)

end Trident.Strat
