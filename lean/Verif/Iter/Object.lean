import Verif.Iter.Composite
import Verif.Iter.Rm
import Verif.Iter.Array
import Verif.Tables.Strat
/-!
# Iterator objects

`PairItr` (/repo/include/trident/iterators/pairitr.h:31-115) is an abstract class; an iterator holds
pointers to other iterators of any subclass.  An object is modelled by its state together with
its methods.
-/
namespace Trident

/-- pairitr.h:31-115: an object of a subclass of `PairItr`: its state, `hasNext`/`next`/getters, and
`moveto`. -/
structure Obj where
  σ : Type
  I : Itr σ Pair
  mv : Int → Int → σ → σ
  s : σ

/-- Running the client loop on the object returns `l`. -/
def Obj.Returns (o : Obj) (l : List Pair) : Prop := Yields o.I o.s l

/-- `hasNext()` on the object. -/
def Obj.hasNext (o : Obj) : Bool := (o.I.hasNext o.s).1

/-- The object after a call of `hasNext()`. -/
def Obj.probed (o : Obj) : Obj := { o with s := (o.I.hasNext o.s).2 }

/-- The state of one of several objects (an element of `children`). -/
abbrev FamSt (cs : List Obj) := (i : Fin cs.length) × (cs.get i).σ

/-- Virtual calls on an element of `children`. -/
def famItr (cs : List Obj) : Itr (FamSt cs) Pair where
  hasNext c := let h := (cs.get c.1).I.hasNext c.2; (h.1, ⟨c.1, h.2⟩)
  next c := ⟨c.1, (cs.get c.1).I.next c.2⟩
  val c := (cs.get c.1).I.val c.2

/-- `moveto` on an element of `children`. -/
def famMv (cs : List Obj) (c1 c2 : Int) (c : FamSt cs) : FamSt cs := ⟨c.1, (cs.get c.1).mv c1 c2 c.2⟩

/-- The vector `children` built from the objects. -/
def famAll (cs : List Obj) : List (FamSt cs) := (List.finRange cs.length).map fun i => ⟨i, (cs.get i).s⟩

/-- A sorting function for every vector of iterators (`std::sort`). -/
abbrev Sorter := ∀ cs : List Obj, List (FamSt cs) → List (FamSt cs)

/-- `new CompositeItr` and `init(iterators, ..)` (compositeitr.cpp:230-247). -/
def Obj.composite (sort : Sorter) (cs : List Obj) : Obj where
  σ := Composite.St (FamSt cs)
  I := Composite.itr (famItr cs) (sort cs)
  mv := Composite.moveto (famItr cs) (famMv cs)
  s := Composite.init (famAll cs)

/-- `CompositeItr` in distinct mode, on children in distinct mode. -/
def Obj.compositeD (sort : Sorter) (tie : ∀ cs : List Obj, FamSt cs → FamSt cs → Bool) (cs : List Obj) : Obj where
  σ := Composite.St (FamSt cs)
  I := Composite.itrD (famItr cs) (sort cs) (tie cs)
  mv := Composite.movetoD (famItr cs) (famMv cs)
  s := Composite.init (famAll cs)

/-- `new RmItr` and `init(itr, rmitr, ..)` (rmitr.cpp:28-43). -/
def Obj.rm (fuel : Nat) (mode : Rm.Mode Pair) (itr rmitr : Obj) : Obj where
  σ := Rm.St itr.σ rmitr.σ Pair
  I := Rm.itr itr.I rmitr.I mode fuel
  mv := Rm.moveto rmitr.I itr.mv rmitr.mv
  s := Rm.init rmitr.I (-1, -1) itr.s rmitr.s

/-- emptyitr.h:26-80 `EmptyItr`. -/
def Obj.empty : Obj where
  σ := Unit
  I := { hasNext := fun s => (false, s), next := id, val := fun _ => (0, 0) }
  mv _ _ := id
  s := ()

/-- `new ArrayItr` and `init(values, v1, v2)`. -/
def Obj.array (l : List (Nat × Nat)) (c1 c2 : Int) : Obj where
  σ := Arr.St
  I := Arr.itr l
  mv := Arr.moveto l
  s := Arr.init l c1 c2

/-- The virtual call `moveto` on a table. -/
def Strat.Tab.mv (m : Mem) (c1 c2 : Int) : Strat.Tab → Strat.Tab
  | .row w1 w2 s => .row w1 w2 (Row.moveto w1 w2 m c1 c2 s)
  | .cluster w1 w2 wc s => .cluster w1 w2 wc (Cluster.moveto w1 w2 wc m c1 c2 s)
  | .column s => .column (Column.moveto m c1 c2 s)

/-- An open table as an object. -/
def Obj.tab (m : Mem) (t : Strat.Tab) : Obj where
  σ := Strat.Tab
  I := Strat.Tab.itr m
  mv := Strat.Tab.mv m
  s := t

/-- The client loop `while (itr->hasNext()) { itr->next(); .. }` collecting the pairs, at most `fuel` of them. -/
def drain {σ α : Type} (I : Itr σ α) : Nat → σ → List α
  | 0, _ => []
  | n + 1, s =>
    let h := I.hasNext s
    if h.1 then let s' := I.next h.2; I.val s' :: drain I n s' else []

/-- querier.cpp:1243-1263 `newItrOnReverse`: the vector `tmpVector` before sorting. -/
def reversed (v1 : Int) (ps : List Pair) : List (Nat × Nat) :=
  (ps.filter fun p => decide (v1 < 0) || p.2 == v1).map fun p => (p.2.toNat, p.1.toNat)

/-- querier.cpp:1243-1263 `newItrOnReverse`; `sort` is `std::sort` on pairs of numbers. -/
def Obj.onReverse (sort : List (Nat × Nat) → List (Nat × Nat)) (fuel : Nat) (old : Obj) (v1 v2 : Int) : Obj :=
  let tmp := reversed v1 (drain old.I fuel old.s)
  if tmp.length > 0 then Obj.array (sort tmp) v1 v2 else Obj.empty

end Trident
