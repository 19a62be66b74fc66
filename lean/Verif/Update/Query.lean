import Verif.Update.Merge
import Verif.Update.Diff3
import Verif.Iter.CompositeScan
/-!
# Queries on a graph with updates

/repo/src/trident/kb/querier.cpp:1014-1209 with differential indices of three pairs of orders (`DiffIndex3`), and the scan of an update,
/repo/src/trident/iterators/diffscanitr.cpp.
-/
namespace Trident

namespace DiffScan

/-- diffscanitr.h:30-41, the fields of `DiffScanItr`: `rest` are the keys the tree iterator has still to return. -/
structure St where
  rest : List (Int × Diff3.DCoord)
  cur : Option Strat.Tab
  key : Int
  v : Row3
  hnc : Bool
  hn : Bool

variable (m : Mem) (base : Nat)

/-- diffscanitr.cpp:86-94 `init`. -/
def init (l : List (Int × Diff3.DCoord)) : St := ⟨l, none, 0, (0, 0, 0), false, false⟩

/-- diffscanitr.cpp:34-47: the next key.  (A table without layout: `getBinaryTable` throws.) -/
def moveKey (s : St) : Bool × St :=
  match s.rest with
  | [] => (false, { s with hn := false, hnc := true })
  | e :: r =>
    match Diff3.openT m base e.2 none none with
    | some t => (true, { s with rest := r, cur := some ((Strat.Tab.itr m).next ((Strat.Tab.itr m).hasNext t).2), key := e.1, hn := true, hnc := true })
    | none => (false, { s with rest := r, hn := false, hnc := true })

/-- diffscanitr.cpp:30-61 `hasNext`. -/
def hasNext (s : St) : Bool × St :=
  if s.hnc then (s.hn, s)
  else match s.cur with
    | some t =>
      let h := (Strat.Tab.itr m).hasNext t
      if h.1 then (true, { s with cur := some ((Strat.Tab.itr m).next h.2), hn := true, hnc := true })
      else moveKey m base { s with cur := none }
    | none => moveKey m base s

/-- diffscanitr.cpp:63-68 `next`. -/
def next (s : St) : St :=
  match s.cur with
  | some t => { s with v := (s.key, (Strat.Tab.itr m).val t), hnc := false }
  | none => s

/-- The iterator interface. -/
def itr : Itr St Row3 where
  hasNext := hasNext m base
  next := next m
  val s := s.v

/-- diffscanitr.cpp:100-102 `moveto`. -/
def moveto (c1 c2 : Int) (s : St) : St := { s with cur := s.cur.map (Strat.Tab.mv m c1 c2) }

end DiffScan

/-- diffindex3.cpp:119-130 `getScan`. -/
def Diff3.Diff.scan (D : Diff3.Diff) (idx : Nat) : Obj3 where
  σ := DiffScan.St
  I := DiffScan.itr D.mem (D.base idx)
  mv := DiffScan.moveto D.mem
  s := DiffScan.init (D.tree idx)

/-- `std::sort` and the bound for the loops, with the sorting of scans. -/
structure UEnv extends Env where
  sortS : Sorter3

/-- The iterators on the table of the key `k` (querier.cpp:1107-1110,1129-1131,1188-1191). -/
def opsP (E : UEnv) (k : Int) : Upd.Ops Obj where
  hasNext := Obj.hasNext
  probed := Obj.probed
  comp := Obj.composite E.sortC
  rm := Obj.rm E.fuel (Rm.plain k k)

/-- The scans (querier.cpp:1112-1119,1129-1131,1193-1200). -/
def opsS (E : UEnv) : Upd.Ops Obj3 where
  hasNext := Obj3.hasNext
  probed := Obj3.probed
  comp := Obj3.composite E.sortS
  rm := Obj3.rm E.fuel

/-- querier.cpp:1036-1062: the iterator `out` on the stored table of a key. -/
def KB.main (kb : KB) (E : Env) (idx : Nat) (k v1 v2 : Int) : Obj :=
  match kb.coords k with
  | some cs => kb.get E idx cs v1 v2
  | none => Obj.empty

/-- querier.cpp:1014-1212 `getIterator(idx, s, p, o, cons)` with the updates `ds`, the oldest first. -/
def KB.getIteratorU (kb : KB) (E : UEnv) (ds : List Diff3.Diff) (idx : Nat) (s p o : Int) : QRes :=
  if kb.present idx ∨ (idx ≥ 3 ∧ kb.present (idx - 3)) then
    let t := permute idx s p o
    if t.1 ≥ 0 then
      match Upd.merged (opsP E t.1) (decide (t.2.1 ≥ 0)) (kb.main E.toEnv idx t.1 t.2.1 t.2.2) (ds.map fun D => (D.add, D.get idx t.1 t.2.1 t.2.2)) with
      | some r => .itr (r.withKey t.1)
      | none => .undef
    else
      match Scan.init kb idx with
      | some s0 =>
        match Upd.merged (opsS E) false { σ := Scan.St, I := Scan.itr kb E.toEnv, mv := Scan.moveto kb, s := s0 } (ds.map fun D => (D.add, D.scan idx)) with
        | some r => .itr r
        | none => .undef
      | none => .undef
  else .null

end Trident
