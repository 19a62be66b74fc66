import Verif.Query.KB
/-!
# Queries that ignore the second column

Models `ignoreSecondColumn` and `getCount` on the iterators that `Querier::getIterator` returns: the tables (newrowtable.h:298-307, newclustertable.h:350-365,
newcolumntable.h:356-369), the rebuilt tables (/repo/src/trident/iterators/arrayitr.cpp:70-87,134-136) and the full scan (/repo/src/trident/iterators/scanitr.cpp:76-185,
/repo/include/trident/iterators/scanitr.h).  A client calls `ignoreSecondColumn` right after it received the iterator, and `getCount` after each `next`; a row is then the key, the first
value and the count.
-/
namespace Trident

/-- `ignoreSecondColumn` on a table of any layout. -/
def Strat.Tab.ignore (m : Mem) : Strat.Tab → Strat.Tab
  | .row w1 w2 s => .row w1 w2 (Row.ignoreSecondColumn w1 w2 m s)
  | .cluster w1 w2 wc s => .cluster w1 w2 wc (Cluster.ignoreSecondColumn w2 s)
  | .column s => .column (Column.ignoreSecondColumn s)

/-- The virtual calls `hasNext`, `next`, `getValue1` and `getCount`. -/
def Strat.Tab.itrD (m : Mem) : Itr Strat.Tab Pair where
  hasNext
    | .row w1 w2 s => let r := (Row.itrD w1 w2 m).hasNext s; (r.1, .row w1 w2 r.2)
    | .cluster w1 w2 wc s => let r := (Cluster.itrD w1 w2 wc m).hasNext s; (r.1, .cluster w1 w2 wc r.2)
    | .column s => let r := (Column.itrD m).hasNext s; (r.1, .column r.2)
  next
    | .row w1 w2 s => .row w1 w2 ((Row.itrD w1 w2 m).next s)
    | .cluster w1 w2 wc s => .cluster w1 w2 wc ((Cluster.itrD w1 w2 wc m).next s)
    | .column s => .column ((Column.itrD m).next s)
  val
    | .row w1 w2 s => (Row.itrD w1 w2 m).val s
    | .cluster w1 w2 wc s => (Cluster.itrD w1 w2 wc m).val s
    | .column s => (Column.itrD m).val s

/-- A table after `ignoreSecondColumn`. -/
def Obj.tabD (m : Mem) (t : Strat.Tab) : Obj where
  σ := Strat.Tab
  I := Strat.Tab.itrD m
  mv := Strat.Tab.mv m
  s := t.ignore m

/-- `ArrayItr` after `init(values, c1, c2)` and `ignoreSecondColumn`. -/
def Obj.arrayD (l : List (Nat × Nat)) (c1 c2 : Int) : Obj where
  σ := Arr.St
  I := Arr.itrD l
  mv := Arr.moveto l
  s := Arr.ignoreSecondColumn (Arr.init l c1 c2)

/-- `newItrOnReverse` (querier.cpp:1243-1263), then `ignoreSecondColumn`. -/
def Obj.onReverseD (sort : List (Nat × Nat) → List (Nat × Nat)) (fuel : Nat) (old : Obj) (v1 v2 : Int) : Obj :=
  let tmp := reversed v1 (drain old.I fuel old.s)
  if tmp.length > 0 then Obj.arrayD (sort tmp) v1 v2 else Obj.empty

/-- `KB.openTab`, then `ignoreSecondColumn`. -/
def KB.openTabD (kb : KB) (e : Coord) (v1 v2 : Int) : Obj :=
  match Strat.decode e.strat with
  | some L => Obj.tabD kb.mem (Strat.openTab kb.mem e.start e.stop L (optOf v1) (optOf v2))
  | none => Obj.empty

/-- `Querier::get` (querier.cpp:918-955), then `ignoreSecondColumn`. -/
def KB.getD (kb : KB) (E : Env) (idx : Nat) (cs : Nat → Option Coord) (v1 v2 : Int) : Obj :=
  match cs idx with
  | some e => kb.openTabD e v1 v2
  | none =>
    if idx ≥ 3 then
      match cs (idx - 3) with
      | some e => Obj.onReverseD E.sortP E.fuel (kb.openTab e (-1) (-1)) v1 v2
      | none => Obj.empty
    else Obj.empty

/-- The calls on the open table of a scan, with `getCount` for `getValue2`. -/
def Src.itrD (m : Mem) : Itr Src Pair where
  hasNext
    | .tab t => let h := (Strat.Tab.itrD m).hasNext t; (h.1, .tab h.2)
    | .arr l s => let h := (Arr.itrD l).hasNext s; (h.1, .arr l h.2)
  next
    | .tab t => .tab ((Strat.Tab.itrD m).next t)
    | .arr l s => .arr l ((Arr.itrD l).next s)
  val
    | .tab t => (Strat.Tab.itrD m).val t
    | .arr l s => (Arr.itrD l).val s

/-- `ignoreSecondColumn` on the open table of a scan (scanitr.cpp:149,164). -/
def Src.ignore (m : Mem) : Src → Src
  | .tab t => .tab (t.ignore m)
  | .arr l s => .arr l (Arr.ignoreSecondColumn s)

namespace Scan

variable (kb : KB) (E : Env)

/-- scanitr.cpp:76-138 `hasNext` after `ignoreSecondColumn`. -/
def hasNextD (s : St) : Bool × St :=
  if s.hnc then (s.hn, s)
  else match s.cur with
    | some c =>
      let h := (Src.itrD kb.mem).hasNext c
      if h.1 then (true, { s with cur := some h.2, hnc := true, hn := true })
      else moveKey { s with cur := none }
    | none => moveKey s

/-- scanitr.cpp:148-156,163-174: ignore the second column of the table, and read its first row. -/
def firstD (c : Src) : Src := (Src.itrD kb.mem).next ((Src.itrD kb.mem).hasNext (c.ignore kb.mem)).2

/-- scanitr.cpp:140-185 `next` after `ignoreSecondColumn`, and `getCount` on the table. -/
def nextD (s : St) : St :=
  match s.cur with
  | some c => { s with cur := some ((Src.itrD kb.mem).next c), hnc := false }
  | none =>
    match s.i2, s.i1 with
    | some t2, none => { s with cur := some (firstD kb (openReversed kb E t2.cur.2)), key := t2.cur.1, hnc := false }
    | some t2, some t1 =>
      if t2.cur.1 ≠ t1.cur.1 then
        { s with cur := some (firstD kb (openReversed kb E t2.cur.2)), key := t2.cur.1, hnc := false }
      else { s with cur := some (firstD kb (openStored kb t1.cur.2)), key := t1.cur.1, hnc := false }
    | none, some t1 => { s with cur := some (firstD kb (openStored kb t1.cur.2)), key := t1.cur.1, hnc := false }
    | none, none => s

/-- The rows of the scan: `getKey`, `getValue1` and `getCount`. -/
def itrD : Itr St Row3 where
  hasNext := hasNextD kb
  next := nextD kb E
  val s := (s.key, match s.cur with
    | some c => (Src.itrD kb.mem).val c
    | none => (0, 0))

end Scan

/-- `getIterator(idx, s, p, o)` (querier.cpp:1014-1080, without differential indices), then `ignoreSecondColumn`.  `EmptyItr` ignores the call. -/
def KB.getIteratorD (kb : KB) (E : Env) (idx : Nat) (s p o : Int) : QRes :=
  if kb.present idx ∨ (idx ≥ 3 ∧ kb.present (idx - 3)) then
    let t := permute idx s p o
    if t.1 ≥ 0 then
      match kb.coords t.1 with
      | some cs => .itr ((kb.getD E idx cs t.2.1 t.2.2).withKey t.1)
      | none => .itr (Obj.empty.withKey t.1)
    else
      match Scan.init kb idx with
      | some s => .itr { σ := Scan.St, I := Scan.itrD kb E, mv := fun c1 c2 s => { s with cur := s.cur.map (Src.mv kb.mem c1 c2) }, s := s }
      | none => .undef
  else .null

end Trident
