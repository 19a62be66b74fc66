import Verif.Iter.Object
/-!
# Term lists: the keys of a graph with their numbers of triples

A term iterator is read with `getKey()` and `getCount()` after `next()`; its elements are pairs
(key, count).  `moveto` throws on all of them and is not modelled.

Models /repo/include/trident/iterators/compositetermitr.h, /repo/src/trident/iterators/compositetermitr.cpp,
/repo/include/trident/iterators/rmcompositetermitr.h and `Querier::getTermList`
(/repo/src/trident/kb/querier.cpp:774-812).
-/
namespace Trident

/-! ## Merge of term lists -/
namespace CTerm

/-- compositetermitr.h:32-37, the fields of `CompositeTermItr`.  `active` is the vector `activechildren`
from its back to its front. -/
structure St (σ : Type) where
  active : List σ
  hnc : Bool
  nc : Bool
  key : Int

variable {σ : Type} (C : Itr σ Pair) (sort : List σ → List σ)

/-- compositetermitr.h:173-179 `init`. -/
def init : St σ := { active := [], hnc := true, nc := false, key := 0 }

/-- compositetermitr.cpp:3-14 `add`.  `sort` is `std::sort` with `_sorter`. -/
def add (s : St σ) (c : σ) : St σ :=
  let h := C.hasNext c
  let s := if h.1 then { s with active := C.next h.2 :: s.active, nc := true } else s
  if s.active.length > 1 then { s with active := sort s.active } else s

/-- compositetermitr.h:113-121: the loop of `hasNext`, from the back: children at `oldkey` move on or
are erased. -/
def advance (oldkey : Int) : List σ → List σ
  | [] => []
  | c :: cs =>
    if (C.val c).1 = oldkey then
      let h := C.hasNext c
      if h.1 then C.next h.2 :: advance oldkey cs else advance oldkey cs
    else c :: advance oldkey cs

/-- compositetermitr.h:104-131 `hasNext`. -/
def hasNext (s : St σ) : Bool × St σ :=
  if s.hnc then (s.nc, s)
  else match s.active with
    | [] => (false, { s with hnc := true, nc := false })
    | c :: _ =>
      let act := advance C (C.val c).1 s.active
      let act := if act.length > 1 then sort act else act
      let nc := !act.isEmpty
      (nc, { s with active := act, hnc := true, nc := nc })

/-- compositetermitr.h:156-162 `next`, after a `hasNext` that returned true (so `hnc` is set). -/
def next (s : St σ) : St σ :=
  match s.active with
  | [] => s
  | c :: _ => { s with key := (C.val c).1, hnc := false }

/-- compositetermitr.h:83-94 `getCount` (after `next`; it throws after `hasNext`). -/
def getCount (s : St σ) : Int := ((s.active.filter fun c => (C.val c).1 = s.key).map fun c => (C.val c).2).sum

/-- The iterator interface. -/
def itr : Itr (St σ) Pair where
  hasNext := hasNext C sort
  next := next C
  val s := (s.key, getCount C s)

end CTerm

/-! ## Subtraction of term lists -/
namespace RmTerm

/-- rmcompositetermitr.h:31-36, the fields of `RmCompositeTermItr`; `currentCount` caches the result of
`getCount` and is left out. -/
structure St (σ τ : Type) where
  main : σ
  rm : τ
  nextCount : Int
  hnc : Bool
  hn : Bool
  key : Int

variable {σ τ : Type} (M : Itr σ Pair) (R : Itr τ Pair) (fuel : Nat)

/-- rmcompositetermitr.h:165-176 `init`. -/
def init (main : σ) (rm : τ) : St σ τ :=
  let h := R.hasNext rm
  { main := main, rm := if h.1 then R.next h.2 else h.2, nextCount := -1, hnc := false, hn := false, key := 0 }

/-- rmcompositetermitr.h:109-111: move `rmitr` up to the key. -/
def catchUp (key : Int) : Nat → τ → τ
  | 0, r => r
  | n + 1, r =>
    if (R.val r).1 < key then
      let h := R.hasNext r
      if h.1 then catchUp key n (R.next h.2) else h.2
    else r

/-- rmcompositetermitr.h:108-135: the loop of `hasNext`, bounded by `fuel` (every theorem holds for all
bounds larger than the number of elements). -/
def search : Nat → St σ τ → St σ τ
  | 0, s => s
  | n + 1, s =>
    let s := { s with rm := catchUp R (M.val s.main).1 fuel s.rm }
    if (R.val s.rm).1 ≠ (M.val s.main).1 then { s with hn := true }
    else
      let rmcount := (R.val s.rm).2
      let maincount := (M.val s.main).2
      if rmcount = maincount then
        let h := M.hasNext s.main
        if h.1 then search n { s with main := M.next h.2 } else { s with main := h.2 }
      else { s with nextCount := maincount - rmcount, hn := true }

/-- rmcompositetermitr.h:98-139 `hasNext`. -/
def hasNext (s : St σ τ) : Bool × St σ τ :=
  if s.hnc then (s.hn, s)
  else
    let s := { s with nextCount := -1, hn := false }
    let h := M.hasNext s.main
    let s := if h.1 then search M R fuel fuel { s with main := M.next h.2 } else { s with main := h.2 }
    (s.hn, { s with hnc := true })

/-- rmcompositetermitr.h:149-156 `next` (after a `hasNext` that returned true). -/
def next (s : St σ τ) : St σ τ := { s with key := (M.val s.main).1, hnc := false }

/-- rmcompositetermitr.h:79-96 `getCount` (after `next`; it throws after `hasNext`). -/
def getCount (s : St σ τ) : Int :=
  if s.nextCount ≠ -1 then s.nextCount
  else if (R.val s.rm).1 ≠ (M.val s.main).1 then (M.val s.main).2
  else (M.val s.main).2 - (R.val s.rm).2

/-- The iterator interface. -/
def itr : Itr (St σ τ) Pair where
  hasNext := hasNext M R fuel
  next := next M
  val s := (s.key, getCount M R s)

end RmTerm

/-! ## The querier's term list -/

/-- `new CompositeTermItr`, `init()` and `add(..)` for every iterator (compositetermitr.cpp:3-14). -/
def Obj.cterm (sort : Sorter) (cs : List Obj) : Obj where
  σ := CTerm.St (FamSt cs)
  I := CTerm.itr (famItr cs) (sort cs)
  mv _ _ := id
  s := (famAll cs).foldl (CTerm.add (famItr cs) (sort cs)) CTerm.init

/-- `new RmCompositeTermItr` and `init(finalItr, itr)`. -/
def Obj.rmterm (fuel : Nat) (main rm : Obj) : Obj where
  σ := RmTerm.St main.σ rm.σ
  I := RmTerm.itr main.I rm.I fuel
  mv _ _ := id
  s := RmTerm.init rm.I main.s rm.s

/-- An iterator over keys and their counts (`TermItr` over the table coordinates, `DiffTermItr` over the
tree of an update): the elements not yet returned and the current one. -/
def Obj.keys (l : List Pair) : Obj where
  σ := List Pair × Pair
  I := { hasNext := fun s => (!s.1.isEmpty, s)
         next := fun s => (s.1.tail, s.1.headD s.2)
         val := fun s => s.2 }
  mv _ _ := id
  s := (l, (0, 0))

/-- A differential index as `getTermList` sees it: its type, and for every permutation the number of
keys and the iterator over them (diffindex.h `getType`, `getNUniqueKeys`, `getTermListItr`). -/
structure DiffTerms where
  isAdd : Bool
  nkeys : Nat → Nat
  list : Nat → Obj

/-- The variable `finalItr` of `getTermList`: any iterator, or a `CompositeTermItr` that can still take
children. -/
inductive FinalItr
  | plain (o : Obj)
  | comp (cs : List Obj)

/-- The iterator `finalItr` points to. -/
def FinalItr.obj (sort : Sorter) : FinalItr → Obj
  | .plain o => o
  | .comp cs => Obj.cterm sort cs

/-- querier.cpp:787-808: one step of the loop. Deletions always ask for the keys of SPO (line 802). -/
def termListStep (sort : Sorter) (fuel : Nat) (perm : Nat) (f : FinalItr) (d : DiffTerms) : FinalItr :=
  if d.nkeys perm > 0 then
    if d.isAdd then
      match f with
      | .plain o => .comp [o, d.list perm]
      | .comp cs => .comp (cs ++ [d.list perm])
    else .plain (Obj.rmterm fuel (f.obj sort) (d.list 0))
  else f

/-- querier.cpp:774-812 `getTermList`; `base` is the list of keys of the stored tables. -/
def getTermList (sort : Sorter) (fuel : Nat) (perm : Nat) (base : Obj) (ds : List DiffTerms) : Obj :=
  (ds.foldl (termListStep sort fuel perm) (.plain base)).obj sort

end Trident
