import Verif.Query.KB
/-!
# `CompositeScanItr`: the merge of several scans

/repo/src/trident/iterators/compositescanitr.cpp and /repo/include/trident/iterators/compositescanitr.h,
without `ignoreSecondColumn`.  The vector `children` is represented reversed: `live` is `children.back()` first.
-/
namespace Trident.CScan

/-- compositescanitr.h:34-43, the fields; `v` are key and values. -/
structure St (σ : Type) where
  live : List σ
  v : Row3
  hn : Bool
  hnc : Bool

/-- What is assumed of `std::sort(.., _sorter_noign)` (compositescanitr.h:44-55), in the order of `live`: a permutation, ascending
by (key, first value, second value). -/
structure SortSpec {σ : Type} (C : Itr σ Row3) (sort : List σ → List σ) : Prop where
  perm : ∀ l, (sort l).Perm l
  sorted : ∀ l, (sort l).Pairwise fun a b => ¬ Row3.lt (C.val b) (C.val a)

variable {σ : Type} (C : Itr σ Row3) (sort : List σ → List σ)

/-- compositescanitr.cpp:109-115 `addChild`, for all children. -/
def addAll (cs : List σ) : List σ :=
  cs.filterMap fun c => let h := C.hasNext c; if h.1 then some (C.next h.2) else none

/-- compositescanitr.cpp:135-143 `init`, then `addChild` for all children. -/
def init (cs : List σ) : St σ := ⟨(addAll C cs).reverse, (0, 0, 0), false, false⟩

/-- compositescanitr.cpp:29-46 `hasNext`. -/
def hasNext (s : St σ) : Bool × St σ :=
  if s.hnc then (s.hn, s)
  else
    let live := if s.live.length > 1 then sort s.live else s.live
    (!live.isEmpty, { s with live := live, hn := !live.isEmpty, hnc := true })

/-- compositescanitr.cpp:48-78 `next`. -/
def next (s : St σ) : St σ :=
  match s.live with
  | [] => s
  | c :: r =>
    let h := C.hasNext c
    { s with live := if h.1 then C.next h.2 :: r else r, v := C.val c, hnc := false }

/-- The iterator interface. -/
def itr : Itr (St σ) Row3 where
  hasNext := hasNext sort
  next := next C
  val s := s.v

/-- compositescanitr.cpp:96-101 `moveto`. -/
def moveto (cmv : Int → Int → σ → σ) (c1 c2 : Int) (s : St σ) : St σ :=
  { s with live := s.live.map (cmv c1 c2), hnc := false }

end CScan

/-- `hasNext()` on the object. -/
def Obj3.hasNext (o : Obj3) : Bool := (o.I.hasNext o.s).1

/-- The object after a call of `hasNext()`. -/
def Obj3.probed (o : Obj3) : Obj3 := { o with s := (o.I.hasNext o.s).2 }

/-- The state of one of several scans. -/
abbrev Fam3 (cs : List Obj3) := (i : Fin cs.length) × (cs.get i).σ

/-- Virtual calls on one of several scans. -/
def fam3Itr (cs : List Obj3) : Itr (Fam3 cs) Row3 where
  hasNext c := let h := (cs.get c.1).I.hasNext c.2; (h.1, ⟨c.1, h.2⟩)
  next c := ⟨c.1, (cs.get c.1).I.next c.2⟩
  val c := (cs.get c.1).I.val c.2

/-- `moveto` on one of several scans. -/
def fam3Mv (cs : List Obj3) (c1 c2 : Int) (c : Fam3 cs) : Fam3 cs := ⟨c.1, (cs.get c.1).mv c1 c2 c.2⟩

/-- The scans. -/
def fam3All (cs : List Obj3) : List (Fam3 cs) := (List.finRange cs.length).map fun i => ⟨i, (cs.get i).s⟩

/-- A sorting function for every vector of scans (`std::sort`). -/
abbrev Sorter3 := ∀ cs : List Obj3, List (Fam3 cs) → List (Fam3 cs)

/-- `new CompositeScanItr`, `init` and `addChild` for the iterators (querier.cpp:1115-1121,1176-1182). -/
def Obj3.composite (sort : Sorter3) (cs : List Obj3) : Obj3 where
  σ := CScan.St (Fam3 cs)
  I := CScan.itr (fam3Itr cs) (sort cs)
  mv := CScan.moveto (fam3Mv cs)
  s := CScan.init (fam3Itr cs) (fam3All cs)

/-- `new RmItr` and `init(itr, rmitr, ..)` on scans (rmitr.cpp:28-43). -/
def Obj3.rm (fuel : Nat) (itr rmitr : Obj3) : Obj3 where
  σ := Rm.St itr.σ rmitr.σ Row3
  I := Rm.itr itr.I rmitr.I Rm.scan fuel
  mv := Rm.moveto rmitr.I itr.mv rmitr.mv
  s := Rm.init rmitr.I (-1, -1, -1) itr.s rmitr.s

end Trident
