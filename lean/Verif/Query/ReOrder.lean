import Verif.Query.KB
/-!
# Queries in an order that is not stored

If neither an order nor its partner is stored, `Querier::getIterator` reads SPO and rearranges the rows:
/repo/src/trident/kb/querier.cpp:1214-1241, /repo/src/trident/iterators/reorderitr.cpp, /repo/include/trident/iterators/reorderitr.h.
`getTermList` does the same for the list of terms: querier.cpp:779-785, /repo/src/trident/iterators/reordertermitr.cpp.

Not modelled here: the saved answers (option `enablePartials`), `mark` and `reset` on the result, `ignoreSecondColumn`.
-/
namespace Trident

/-- `TermItr::gotoKey` (termitr.cpp:105-155) on the list of tables to come.  Where it stops depends on the files; see `TermIt.gotoKey`. -/
abbrev KeySeek := Int → TermSt → TermSt

/-- scanitr.cpp:344-370 `gotoKey`. -/
def Scan.gotoKey (G : KeySeek) (k : Int) (s : Scan.St) : Scan.St :=
  if k > s.key then { s with cur := none, i2 := s.i2.map (G k), i1 := s.i1.map (G k) } else s

namespace ReOrder

/-- The iterator `helper` over SPO: `gk` is its `gotoKey`, `none` if that throws (pairitr.h:98-101, compositescanitr.cpp:26-28,
diffscanitr.cpp:26-28). -/
structure Helper where
  σ : Type
  I : Itr σ Row3
  gk : Int → σ → Option σ
  s : σ

/-- reorderitr.cpp:51-56 (and 75-80, 100-105, 125-130): the predicate is greater than the one asked for. -/
def jumps (p : Int) (r : Row3) : Bool := decide (p ≥ 0) && decide (r.2.1 > p)

/-- reorderitr.cpp:51-66 (and 75-90, 100-115, 125-140): the row is kept. -/
def keeps (p o : Int) (r : Row3) : Bool :=
  !(decide (p ≥ 0) && decide (r.2.1 ≠ p)) && !(decide (o ≥ 0) && decide (r.2.2 ≠ o))

/-- reorderitr.cpp:44-142: the loop of `fillValuesOSP`, `fillValuesPSO`, `fillValuesPOS` and `fillValuesOPS`, which differ in `rearrange` only.  The
rows that are kept; `none`: an exception.  At most `n` rounds. -/
def collect (H : Helper) (p o : Int) : Nat → H.σ → Option (List Row3)
  | 0, _ => some []
  | n + 1, s =>
    let h := H.I.hasNext s
    if h.1 then
      let s' := H.I.next h.2
      let r := H.I.val s'
      if jumps p r then (H.gk (r.1 + 1) s').bind (collect H p o n)
      else if keeps p o r then (collect H p o n s').map (r :: ·)
      else collect H p o n s'
    else some []

/-- Key and values of a row of SPO in the order `idx` (reorderitr.cpp:47-49,71-73,96-98,121-123). -/
def rearrange (idx : Nat) (r : Row3) : Nat × (Nat × Nat) :=
  match idx with
  | 4 => (r.2.2.toNat, (r.1.toNat, r.2.1.toNat))
  | 5 => (r.2.1.toNat, (r.1.toNat, r.2.2.toNat))
  | 2 => (r.2.1.toNat, (r.2.2.toNat, r.1.toNat))
  | _ => (r.2.2.toNat, (r.2.1.toNat, r.1.toNat))

/-- reorderitr.cpp:26-42 `fillValue`: append the pair to the vector of its key.  (The order of the keys in the hash map does not matter: they are
sorted afterwards.) -/
def fillValue (M : List (Nat × List (Nat × Nat))) (x : Nat × (Nat × Nat)) : List (Nat × List (Nat × Nat)) :=
  match M with
  | [] => [(x.1, [x.2])]
  | e :: M => if e.1 = x.1 then (e.1, e.2 ++ [x.2]) :: M else e :: fillValue M x

/-- `std::sort` of vectors by key (reorderitr.cpp:144-146,176). -/
abbrev KeySort := List (Nat × List (Nat × Nat)) → List (Nat × List (Nat × Nat))

/-- reorderitr.cpp:148-178 `fillValues`: the variable `array`. -/
def array (sortK : KeySort) (idx : Nat) (rows : List Row3) : List (Nat × List (Nat × Nat)) :=
  sortK ((rows.map (rearrange idx)).foldl fillValue [])

/-- reorderitr.h:38-50: the fields; `itr` is the `ArrayItr` over a vector. -/
structure St where
  nextKey : Nat
  itr : Option (List (Nat × Nat) × Arr.St)
  key : Int

/-- reorderitr.cpp:273-287 `hasNext`, with `array` filled. -/
def skipEmpty (a : List (Nat × List (Nat × Nat))) (i : Nat) : Bool × Nat :=
  if h : i < a.length then
    if a[i].2.length > 0 then (true, i) else skipEmpty a (i + 1)
  else (false, i)
termination_by a.length - i

/-- `itr == NULL || ! itr->hasNext()` with the effect on `itr`. -/
def atEnd (s : St) : Bool × St :=
  match s.itr with
  | none => (true, s)
  | some (l, t) => let h := (Arr.itr l).hasNext t; (!h.1, { s with itr := some (l, h.2) })

def hasNext (a : List (Nat × List (Nat × Nat))) (s : St) : Bool × St :=
  let e := atEnd s
  if e.1 then
    let k := skipEmpty a e.2.nextKey
    (k.1, { e.2 with nextKey := k.2 })
  else (true, e.2)

/-- reorderitr.cpp:311-339 `next`: the vector of the next key is sorted when it is reached. -/
def next (sortP : List (Nat × Nat) → List (Nat × Nat)) (a : List (Nat × List (Nat × Nat))) (s : St) : St :=
  let e := atEnd s
  if e.1 then
    match a[e.2.nextKey]? with
    | some x =>
      let l := sortP x.2
      let t := (Arr.itr l).next ((Arr.itr l).hasNext (Arr.init l (-1) (-1))).2
      ⟨e.2.nextKey + 1, some (l, t), x.1⟩
    | none => e.2
  else
    match e.2.itr with
    | some (l, t) => { e.2 with itr := some (l, (Arr.itr l).next t) }
    | none => e.2

def itr (sortP : List (Nat × Nat) → List (Nat × Nat)) (a : List (Nat × List (Nat × Nat))) : Itr St Row3 where
  hasNext := hasNext a
  next := next sortP a
  val s := (s.key, match s.itr with
    | some (l, t) => (Arr.itr l).val t
    | none => (0, 0))

/-- reorderitr.h:148-155 `moveto`: within the current key. -/
def moveto (c1 c2 : Int) (s : St) : St :=
  let e := atEnd s
  if e.1 then e.2
  else match e.2.itr with
    | some (l, t) => { e.2 with itr := some (l, Arr.moveto l c1 c2 t) }
    | none => e.2

/-- reorderitr.cpp:292-298: the loop of `gotoKey`; the field `key` is assigned on the way. -/
def seek (a : List (Nat × List (Nat × Nat))) (k : Int) (i : Nat) (key : Int) : Nat × Int :=
  if h : i < a.length then
    if (a[i].1 : Int) ≥ k then (i, a[i].1) else seek a k (i + 1) a[i].1
  else (i, key)
termination_by a.length - i

/-- reorderitr.cpp:288-307 `gotoKey`, with `array` filled. -/
def gotoKey (a : List (Nat × List (Nat × Nat))) (k : Int) (s : St) : St :=
  if k ≤ s.key then s
  else
    let x := seek a k s.nextKey s.key
    (hasNext a { s with nextKey := x.1, key := x.2, itr := if x.1 < a.length then none else s.itr }).2

/-- The object `new ReOrderItr(helper, idx, this, s, p, o)` after the first `hasNext`; `none`: an exception. -/
def obj (E : Env) (sortK : KeySort) (H : Helper) (idx : Nat) (p o : Int) : Option Obj3 :=
  (collect H p o E.fuel H.s).map fun rows =>
    let a := array sortK idx rows
    { σ := St, I := itr E.sortP a, mv := moveto, s := ⟨0, none, 0⟩ }

end ReOrder

/-- The outcome of a query in any order: as `QRes`, or an exception while the answer is read. -/
inductive RRes
  | res (r : QRes)
  | throws

/-- The iterator over SPO as a helper: a scan can jump to a key, a lookup cannot. -/
def KB.helper (kb : KB) (E : Env) (G : KeySeek) (s p o : Int) : Option ReOrder.Helper :=
  if s ≥ 0 then
    match kb.getIterator E 0 s p o with
    | .itr h => some ⟨h.σ, h.I, fun _ _ => none, h.s⟩
    | _ => none
  else
    match Scan.init kb 0 with
    | some st => some ⟨Scan.St, Scan.itr kb E, fun k t => some (Scan.gotoKey G k t), st⟩
    | none => none

/-- querier.cpp:1214-1241 `getIterator(idx, s, p, o)` without differential indices and without saved answers. -/
def KB.getIteratorR (kb : KB) (E : Env) (G : KeySeek) (sortK : ReOrder.KeySort) (idx : Nat) (s p o : Int) : RRes :=
  match kb.getIterator E idx s p o with
  | .null =>
    if kb.present 0 then
      match kb.helper E G s p o with
      | some H =>
        match ReOrder.obj E sortK H idx p o with
        | some x => .res (.itr x)
        | none => .throws
      | none => .res .undef
    else .res .undef
  | r => .res r

end Trident
