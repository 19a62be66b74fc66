import Verif.Bytes
import Verif.Itr
/-!
# Cluster layout (`NewClusterTable`, `NewClusterTableInserter`)

/repo/include/trident/binarytables/newclustertable.h and
/repo/src/trident/binarytables/newclustertableinserter.cpp.
A table is a sequence of groups: first value, number of second values, second values.
-/
namespace Trident.Cluster

/-! ## Inserter -/

/-- Fields of `NewClusterTableInserter` (`prevt1`, `v2`) and the bytes written so far. -/
structure Ins where
  prev : Int
  vs : List Nat
  out : List UInt8

/-- newclustertableinserter.cpp:25-28 `startAppend`. -/
def startAppend : Ins := { prev := -1, vs := [], out := [] }

/-- newclustertableinserter.cpp:43-57 `writeGroup`; `wc` is the counter field
(`writeByte` or `writeInt`, i.e. `.b1` or `.b4`). -/
def writeGroup (w1 w2 wc : Width) (s : Ins) : Ins :=
  if s.vs = [] then s
  else { s with
    out := s.out ++ (w1.enc s.prev.toNat ++ wc.enc s.vs.length ++ s.vs.flatMap w2.enc)
    vs := [] }

/-- newclustertableinserter.cpp:30-37 `append`. -/
def append (w1 w2 wc : Width) (s : Ins) (t : Nat × Nat) : Ins :=
  let s := if (t.1 : Int) ≠ s.prev then { writeGroup w1 w2 wc s with prev := t.1 } else s
  { s with vs := s.vs ++ [t.2] }

/-- The bytes of the table: `startAppend`, `append` for each pair, `stopAppend`
(newclustertableinserter.cpp:39-41). -/
def encode (w1 w2 wc : Width) (l : List (Nat × Nat)) : List UInt8 :=
  (writeGroup w1 w2 wc (l.foldl (append w1 w2 wc) startAppend)).out

/-! ## Iterator -/

/-- The fields of `NewClusterTable` (newclustertable.h:36-48). -/
structure St where
  start : Nat
  current : Nat
  stop : Nat
  v1 : Int
  v2 : Int
  count : Int
  countgroup : Int
  ign : Bool
  mCurrent : Nat
  mV1 : Int
  mV2 : Int
  mCount : Int
  mCountgroup : Int
  deriving Repr, DecidableEq

section
variable (w1 w2 wc : Width) (m : Mem)

/-- newclustertable.h:161-170 `setup(start, end)`. -/
def setup (s e : Nat) : St :=
  { start := s, current := s, stop := e, v1 := -1, v2 := -1, count := 0, countgroup := 0,
    ign := false, mCurrent := 0, mV1 := 0, mV2 := 0, mCount := 0, mCountgroup := 0 }

/-- newclustertable.h:157-159 `hasNext`. -/
def hasNext (s : St) : Bool := decide (s.current < s.stop)

/-- Size of the header of a group. -/
def hdr : Nat := w1.size + wc.size

/-- `ReaderCount::read(p + Reader1::size())`, the counter of the group at `p`. -/
def rc (p : Nat) : Int := wc.read m (p + w1.size)

/-- newclustertable.h:105-128 `next`. -/
def next (s : St) : St :=
  if s.ign then
    let c := rc w1 wc m s.current
    { s with v1 := w1.read m s.current, count := c, countgroup := c,
             current := s.current + w1.size + (wc.size + w2.size * c.toNat) }
  else if s.count > 0 then
    { s with v2 := w2.read m s.current, current := s.current + w2.size, count := s.count - 1 }
  else
    let c := rc w1 wc m s.current
    { s with v1 := w1.read m s.current, count := c - 1, countgroup := c,
             v2 := w2.read m (s.current + w1.size + wc.size),
             current := s.current + w1.size + wc.size + w2.size }

/-- newclustertable.h:174-187 (and 195-208): find the group of `c1`; the result is the
range passed to `setup`.  The C++ condition `s != e` is written `s < e`: `s` moves from
group to group and never jumps over `e`. -/
def find (c1 : Int) (s e : Nat) : Nat × Nat :=
  if s < e then
    let v := w1.read m s
    let sz := w1.size + wc.size + (rc w1 wc m s).toNat * w2.size
    if v = c1 then (s, s + sz)
    else if v > c1 then (e, e)
    else find c1 (s + sz) e
  else (s, e)
  termination_by e - s
  decreasing_by have := w1.size_pos; omega

/-- newclustertable.h:172-191 `setup(c1, start, end)`. -/
def setupC1 (c1 : Int) (s e : Nat) : St :=
  let r := find w1 w2 wc m c1 s e
  if r.2 < r.1 then setup r.1 r.1 else setup r.1 r.2

/-- newclustertable.h:220-233 (and 306-319): binary search for `c2` among second values;
returns the final position and whether the value was found there. -/
def bsearch (c2 : Int) (s e : Nat) : Nat × Bool :=
  if s < e then
    let mid := s + (e - s) / w2.size / 2 * w2.size
    if w2.read m mid < c2 then bsearch c2 (mid + w2.size) e
    else if w2.read m mid > c2 then bsearch c2 s mid
    else (mid, true)
  else (s, false)
  termination_by e - s
  decreasing_by
  · have := w2.size_pos
    show e - (s + (e - s) / w2.size / 2 * w2.size + w2.size) < e - s
    omega
  · have h1 := Nat.div_mul_le_self (e - s) w2.size
    have h2 : (e - s) / w2.size / 2 * w2.size ≤ (e - s) / w2.size * w2.size / 2 := by
      rw [Nat.le_div_iff_mul_le (by omega)]
      have : (e - s) / w2.size / 2 * 2 ≤ (e - s) / w2.size := Nat.div_mul_le_self _ _
      calc (e - s) / w2.size / 2 * w2.size * 2 = (e - s) / w2.size / 2 * 2 * w2.size := by
            rw [Nat.mul_right_comm]
        _ ≤ _ := Nat.mul_le_mul_right _ this
    show s + (e - s) / w2.size / 2 * w2.size - s < e - s
    omega

/-- newclustertable.h:193-241 `setup(c1, c2, start, end)`. -/
def setupC12 (c1 c2 : Int) (start e : Nat) : St :=
  let r := find w1 w2 wc m c1 start e
  if r.1 < r.2 then
    let st := setup r.1 r.2
    let c := rc w1 wc m r.1
    let cur := r.1 + w1.size + wc.size
    let b := bsearch w2 m c2 cur r.2
    let cur := if b.2 then b.1 else cur
    if w2.read m cur = c2 then
      { st with v1 := c1, current := cur, stop := cur + w2.size, count := 1, countgroup := 1 }
    else { st with v1 := c1, current := e, count := c, countgroup := c }
  else setup r.1 r.1

/-- newclustertable.h:277-285: skip whole groups below `c1`; returns the position and the
last first-value read. -/
def skip (c1 : Int) (cur stop : Nat) (term : Int) : Nat × Int :=
  if cur < stop then
    let t := w1.read m cur
    if t ≥ c1 then (cur, t)
    else skip c1 (cur + w1.size + (wc.size + (rc w1 wc m cur).toNat * w2.size)) stop t
  else (cur, term)
  termination_by stop - cur
  decreasing_by have := w1.size_pos; omega

/-- newclustertable.h:297-322: the part of `moveto` for the second value, once the group
of `c1` is the current one. -/
def movetoSecond (c2 : Int) (s : St) : St :=
  let s := if s.countgroup = 0 then next w1 w2 wc m s else s
  if c2 ≤ s.v2 then { s with count := s.count + 1, current := s.current - w2.size }
  else
    let e := s.current + s.count.toNat * w2.size
    let b := bsearch w2 m c2 s.current e
    { s with current := b.1, count := ((e - b.1) / w2.size : Nat) }

/-- newclustertable.h:263-332 `moveto(c1, c2)`. -/
def moveto (c1 c2 : Int) (s : St) : St :=
  if hasNext s = false ∧ (c1 > s.v1 ∨ (s.ign = false ∧ s.v1 = c1 ∧ c2 > s.v2)) then s
  else
    let r :=
      if c1 > s.v1 then
        let cur := if s.count ≠ 0 ∧ s.ign = false then s.current + w2.size * s.count.toNat
                   else s.current
        let k := skip w1 w2 wc m c1 cur s.stop s.v1
        ({ s with current := k.1, count := 0, countgroup := 0, v2 := -1 }, k.2)
      else (s, s.v1)
    let s := r.1
    if s.ign then
      if c1 ≤ s.v1 then
        { s with current := s.current - (w1.size + wc.size + s.countgroup.toNat * w2.size) }
      else s
    else if r.2 = c1 then movetoSecond w1 w2 wc m c2 s
    else if s.v2 = -1 then s
    else { s with count := s.count + 1, current := s.current - w2.size }

/-- newclustertable.h:334-340 `mark`. -/
def mark (s : St) : St :=
  { s with mCurrent := s.current, mV1 := s.v1, mV2 := s.v2, mCount := s.count,
           mCountgroup := s.countgroup }

/-- newclustertable.h:342-348 `reset`. -/
def reset (s : St) : St :=
  { s with current := s.mCurrent, v1 := s.mV1, v2 := s.mV2, count := s.mCount,
           countgroup := s.mCountgroup }

/-- newclustertable.h:350-357 `ignoreSecondColumn`. -/
def ignoreSecondColumn (s : St) : St :=
  if s.v1 ≠ -1 then
    { s with ign := true, current := s.current + w2.size * s.count.toNat, count := 0 }
  else { s with ign := true }

/-- newclustertable.h:78-86, the loop of `getCardinality`: groups, pairs, last counter.
`none`: the pointer jumped over `end`, the loop goes on outside of the table (undefined). -/
def cardLoop (s e : Nat) (nels sum c : Int) : Option (Int × Int × Int) :=
  if s < e then
    let c := rc w1 wc m s
    cardLoop (s + w1.size + (wc.size + w2.size * c.toNat)) e (nels + 1) (sum + c) c
  else if s = e then some (nels, sum, c)
  else none
  termination_by e - s
  decreasing_by have := w1.size_pos; omega

/-- newclustertable.h:74-92 `getCardinality`: value and new state; the loop overwrites
`count` and `countgroup` (line 82). -/
def getCardinality (s : St) : Option (Int × St) :=
  match cardLoop w1 w2 wc m s.start s.stop 0 0 (-1) with
  | none => none
  | some (nels, sum, c) =>
    some (if s.ign then nels else sum,
          if s.start = s.stop then s else { s with count := c, countgroup := c })

/-- newclustertable.h:359-365 `getCount`. -/
def getCount (s : St) : Int := if s.ign then s.countgroup else 1

/-- The iterator as seen by the client loop; values are the two columns. -/
def itr : Itr St Pair where
  hasNext s := (hasNext s, s)
  next := next w1 w2 wc m
  val s := (s.v1, s.v2)

/-- The iterator in distinct mode: value is the first column and `getCount`. -/
def itrD : Itr St Pair where
  hasNext s := (hasNext s, s)
  next := next w1 w2 wc m
  val s := (s.v1, getCount s)
end

end Trident.Cluster
