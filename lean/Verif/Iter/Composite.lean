import Verif.Itr
/-!
# `CompositeItr`: the merge of the main table with additions

/repo/src/trident/iterators/compositeitr.cpp and
/repo/include/trident/iterators/compositeitr.h, both modes.

The vector `children` with the index `lastIdx` is represented by two lists:
`live` is `children[lastIdx], children[lastIdx-1], ..., children[0]` and
`dead` is `children[lastIdx+1], children[lastIdx+2], ...`.
A child is any iterator (`C`, with seek `cmv`).  `sort` stands for `std::sort`, of which only the
specification is used (`SortSpec`).
-/
namespace Trident.Composite

/-- The fields of `CompositeItr` (compositeitr.h:37-54) for the plain mode. -/
structure St (σ : Type) where
  live : List σ
  dead : List σ
  v : Pair
  hn : Bool
  hnc : Bool
  isSorted : Bool
  decreased : Bool

/-- What is assumed of `std::sort(.., _composite_itr_sorter)`, in the order of `live`
(the comparator is descending, `live` is reversed): a permutation, ascending by value. -/
structure SortSpec {σ : Type} (C : Itr σ Pair) (sort : List σ → List σ) : Prop where
  perm : ∀ l, (sort l).Perm l
  sorted : ∀ l, (sort l).Pairwise fun a b => Pair.le (C.val a) (C.val b)

variable {σ : Type} (C : Itr σ Pair) (cmv : Int → Int → σ → σ) (sort : List σ → List σ)

/-- compositeitr.cpp:230-247 `init`. -/
def init (children : List σ) : St σ :=
  { live := children.reverse, dead := [], v := (-1, -1), hn := !children.isEmpty, hnc := true,
    isSorted := false, decreased := false }

/-- compositeitr.cpp:30-69 `hasNext`, plain mode (34-40, 65-66). -/
def hasNext (s : St σ) : Bool × St σ :=
  if s.hnc then (s.hn, s)
  else
    let s' : St σ := match s.live with
      | [] => { s with decreased := false }
      | c :: r =>
        let h := C.hasNext c
        if h.1 then { s with live := h.2 :: r, decreased := false }
        else { s with live := r, dead := h.2 :: s.dead, decreased := true }
    let s' := { s' with hn := !s'.live.isEmpty, hnc := true }
    (s'.hn, s')

/-- compositeitr.cpp:71-75 `_composite_itr_sorter`. -/
def gt (a b : σ) : Bool := decide (Pair.lt (C.val b) (C.val a))

/-- compositeitr.cpp:96-106: the advanced last child is moved into place. -/
def bubble (c : σ) : List σ → List σ
  | [] => [c]
  | x :: r => if gt C c x then x :: bubble c r else c :: x :: r

/-- compositeitr.cpp:140-156 `rearrangeChildren`: two children are swapped if needed, more are
sorted. -/
def rearrange : List σ → List σ
  | [a, b] => if gt C a b then [b, a] else [a, b]
  | l => if l.length > 2 then sort l else l

/-- compositeitr.cpp:77-121 `next`, plain mode. -/
def next (s : St σ) : St σ :=
  let s := if s.hnc then s else (hasNext C s).2
  let s' : St σ :=
    if s.decreased then s
    else match s.live with
      | [] => s
      | c :: r =>
        if !s.isSorted && !r.isEmpty then
          { s with live := rearrange C sort (C.next c :: r.map C.next), isSorted := true }
        else { s with live := bubble C (C.next c) r }
  match s'.live with
  | [] => { s' with hnc := false }
  | c :: _ => { s' with v := C.val c, hnc := false }

/-- compositeitr.cpp:203-210: removed children that stand at the target again become live. -/
def reconsider (c : Pair) : List σ → List σ → List σ × List σ
  | live, [] => (live, [])
  | live, d :: dead => if C.val d = c then reconsider c (d :: live) dead else (live, d :: dead)

/-- The kept children after the swap of compositeitr.cpp:215-221. -/
def rot : List σ → List σ
  | [] => []
  | h :: t => t ++ [h]

/-- compositeitr.cpp:212-225, the loop of `moveto`. `kept` are the children already handled that
are still live. -/
def seekLoop (c1 c2 : Int) : List σ → List σ → List σ → List σ × List σ
  | kept, dead, [] => (kept, dead)
  | kept, dead, c :: r =>
    let h := C.hasNext (cmv c1 c2 c)
    if h.1 then seekLoop c1 c2 (kept ++ [h.2]) dead r
    else seekLoop c1 c2 (rot kept) (h.2 :: dead) r

/-- compositeitr.cpp:202-228 `moveto`, plain mode.  The test `lastIdx < children.size() - 1` is
unsigned: it fails for `lastIdx = -1` (no live child). -/
def moveto (c1 c2 : Int) (s : St σ) : St σ :=
  let r := if s.v = (c1, c2) && !s.live.isEmpty then reconsider C (c1, c2) s.live s.dead
    else (s.live, s.dead)
  let k := seekLoop C cmv c1 c2 [] r.2 r.1
  { s with
    live := k.1
    dead := k.2
    isSorted := if r.1.isEmpty then s.isSorted else false
    decreased := if r.1.isEmpty then s.decreased else false
    hn := !k.1.isEmpty
    hnc := true }

/-- The iterator interface in plain mode. -/
def itr : Itr (St σ) Pair where
  hasNext := hasNext C
  next := next C sort
  val s := s.v

/-- compositeitr.cpp:32: the assertion `isSorted` that `hasNext` makes in debug builds. -/
def assertSorted (s : St σ) : Bool := s.hnc || s.isSorted

/-! ## Distinct mode (`ignoreSecondColumn`)

The value of a child is (first value, count). `v` is (first value, `currentCount`).  `tie` stands for
the comparison of the second values, which are meaningless in this mode. -/

variable (tie : σ → σ → Bool)

/-- `std::sort` in this mode: a permutation, ascending by first value. -/
structure SortSpecD {σ : Type} (C : Itr σ Pair) (sort : List σ → List σ) : Prop where
  perm : ∀ l, (sort l).Perm l
  sorted : ∀ l, (sort l).Pairwise fun a b => (C.val a).1 ≤ (C.val b).1

/-- compositeitr.cpp:71-75 `_composite_itr_sorter`. -/
def gtD (a b : σ) : Bool := decide ((C.val b).1 < (C.val a).1) || ((C.val b).1 == (C.val a).1 && tie a b)

/-- compositeitr.cpp:43-60: the children that stand at the current first value `v` are asked for
more. Result: the live children, the removed ones, `isKeyOk`, and whether one was removed. -/
def stepD (v : Int) : List σ → List σ → Bool → Bool → List σ → List σ × List σ × Bool × Bool
  | kept, dead, ok, dec, [] => (kept, dead, ok, dec)
  | kept, dead, ok, dec, c :: r =>
    if (C.val c).1 = v then
      let h := C.hasNext c
      if h.1 then stepD v (kept ++ [h.2]) dead true dec r
      else stepD v (rot kept) (h.2 :: dead) ok true r
    else (kept ++ c :: r, dead, ok, dec)

/-- compositeitr.cpp:30-69 `hasNext`, distinct mode. -/
def hasNextD (s : St σ) : Bool × St σ :=
  if s.hnc then (s.hn, s)
  else
    let r := stepD C s.v.1 [] s.dead false false s.live
    let s' := { s with
                live := r.1
                dead := r.2.1
                decreased := r.2.2.2 && !r.2.2.1
                hn := !r.1.isEmpty
                hnc := true }
    (s'.hn, s')

/-- compositeitr.cpp:96-106. -/
def bubbleD (c : σ) : List σ → List σ
  | [] => [c]
  | x :: r => if gtD C tie c x then x :: bubbleD c r else c :: x :: r

/-- compositeitr.cpp:140-156 `rearrangeChildren`, distinct mode. -/
def rearrangeD : List σ → List σ
  | [a, b] => if (C.val b).1 < (C.val a).1 then [b, a] else [a, b]
  | l => if l.length > 2 then sort l else l

/-- compositeitr.cpp:84-92: the last child and those at the current value are advanced. -/
def advanceD (s : St σ) : List σ → List σ
  | [] => []
  | c :: r => C.next c :: r.map fun x => if !s.isSorted || (C.val x).1 == s.v.1 then C.next x else x

/-- compositeitr.cpp:85-92 `mustReArrange`. -/
def mustD (s : St σ) : List σ → Bool
  | [] => false
  | _ :: r => r.any fun x => !s.isSorted || (C.val x).1 == s.v.1

/-- compositeitr.cpp:113-118: `currentCount`. -/
def countD (v : Int) (l : List σ) : Int :=
  ((l.filter fun x => (C.val x).1 == v).map fun x => (C.val x).2).sum

/-- compositeitr.cpp:77-121 `next`, distinct mode. -/
def nextD (s : St σ) : St σ :=
  let s := if s.hnc then s else (hasNextD C s).2
  let s' : St σ :=
    if s.decreased then s
    else if mustD C s s.live then
      { s with live := rearrangeD C sort (advanceD C s s.live), isSorted := true }
    else match advanceD C s s.live with
      | [] => s
      | c :: r => { s with live := bubbleD C tie c r }
  match s'.live with
  | [] => { s' with hnc := false }
  | c :: _ => { s' with v := ((C.val c).1, countD C (C.val c).1 s'.live), hnc := false }

/-- compositeitr.cpp:203-210 in distinct mode. -/
def reconsiderD (c : Int) : List σ → List σ → List σ × List σ
  | live, [] => (live, [])
  | live, d :: dead => if (C.val d).1 = c then reconsiderD c (d :: live) dead else (live, d :: dead)

/-- compositeitr.cpp:202-228 `moveto`, distinct mode. -/
def movetoD (c1 c2 : Int) (s : St σ) : St σ :=
  let r := if s.v.1 = c1 && !s.live.isEmpty then reconsiderD C c1 s.live s.dead
    else (s.live, s.dead)
  let k := seekLoop C cmv c1 c2 [] r.2 r.1
  { s with
    live := k.1
    dead := k.2
    isSorted := if r.1.isEmpty then s.isSorted else false
    decreased := if r.1.isEmpty then s.decreased else false
    hn := !k.1.isEmpty
    hnc := true }

/-- The iterator interface in distinct mode. -/
def itrD : Itr (St σ) Pair where
  hasNext := hasNextD C
  next := nextD C sort tie
  val s := s.v

end Trident.Composite
