import Verif.Bytes
import Verif.Itr
/-!
# Row layout (`NewRowTable`, `NewRowTableInserter`)

/repo/include/trident/binarytables/newrowtable.h and
/repo/src/trident/binarytables/newrowtableinserter.cpp.
Pointers are addresses (`Nat`), one state record per iterator object.
-/
namespace Trident.Row

/-- newrowtableinserter.cpp:28-31 `append`: first field, then second field; the
table is the concatenation of its rows (`startAppend`/`stopAppend`, 25-26 and 33-34, are empty). -/
def encode (w1 w2 : Width) (l : List (Nat × Nat)) : List UInt8 :=
  l.flatMap fun p => w1.enc p.1 ++ w2.enc p.2

/-- The fields of `NewRowTable` (newrowtable.h:36-45). -/
structure St where
  start : Nat
  current : Nat
  stop : Nat
  v1 : Int
  v2 : Int
  count : Int
  ign : Bool
  mark : Nat
  deriving Repr, DecidableEq

section
variable (w1 w2 : Width) (m : Mem)

/-- `Reader1::size() + Reader2::size()`. -/
def blk (w1 w2 : Width) : Nat := w1.size + w2.size

theorem blk_pos (w1 w2 : Width) : 0 < blk w1 w2 := by
  have := w1.size_pos; unfold blk; omega

/-- `Reader1::read(p)`. -/
def r1 (p : Nat) : Int := w1.read m p
/-- `Reader2::read(p + Reader1::size())`. -/
def r2 (p : Nat) : Int := w2.read m (p + w1.size)

/-- newrowtable.h:155-163 `setup(start, end)`. -/
def setup (s e : Nat) : St :=
  { start := s, current := s, stop := e, v1 := -1, v2 := -1, count := 1, ign := false, mark := 0 }

/-- newrowtable.h:150-153 `hasNext`. -/
def hasNext (s : St) : Bool := decide (s.current < s.stop)

/-- newrowtable.h:111-114 (also 134-137, 302-305): skip rows whose first value is `v`.
The C++ test `current != end` is written `current < stop`: the pointer only moves in
whole rows inside the table, so it never jumps over `end`. -/
def skipEq (v : Int) (cur stop : Nat) (cnt : Int) : Nat × Int :=
  if cur < stop ∧ r1 w1 m cur = v then skipEq v (cur + blk w1 w2) stop (cnt + 1) else (cur, cnt)
  termination_by stop - cur
  decreasing_by have := blk_pos w1 w2; omega

/-- newrowtable.h:103-122 `next`. -/
def next (s : St) : St :=
  if s.ign then
    let v := r1 w1 m s.current
    let r := skipEq w1 w2 m v (s.current + blk w1 w2) s.stop 1
    { s with v1 := v, current := r.1, count := r.2 }
  else
    { s with v1 := r1 w1 m s.current, v2 := r2 w1 w2 m s.current,
             current := s.current + w1.size + w2.size }

/-- newrowtable.h:168-190 (identical at 215-237): the binary search that narrows the
interval while it has more than 64 rows; returns the new start. -/
def narrow (c1 : Int) (startS endS : Nat) : Nat :=
  if (endS - startS) / blk w1 w2 > 64 then
    let gap := (endS - startS) / blk w1 w2 / 2 * blk w1 w2
    let middle := startS + gap
    if r1 w1 m middle < c1 then narrow c1 middle endS
    else narrow c1 startS (middle - blk w1 w2)
  else startS
  termination_by endS - startS
  decreasing_by
  · rename_i h _
    have hb := blk_pos w1 w2
    have : 0 < (endS - startS) / blk w1 w2 / 2 * blk w1 w2 := Nat.mul_pos (by omega) hb
    have : 0 < endS - startS := by
      rcases Nat.eq_zero_or_pos (endS - startS) with h0 | h0
      · rw [h0] at h; simp at h
      · exact h0
    show endS - (startS + (endS - startS) / blk w1 w2 / 2 * blk w1 w2) < endS - startS
    omega
  · rename_i h _
    have hb := blk_pos w1 w2
    have : 0 < endS - startS := by
      rcases Nat.eq_zero_or_pos (endS - startS) with h0 | h0
      · rw [h0] at h; simp at h
      · exact h0
    have h2 : (endS - startS) / blk w1 w2 / 2 * blk w1 w2 ≤ (endS - startS) / blk w1 w2 * blk w1 w2 :=
      Nat.mul_le_mul_right _ (by omega)
    have h3 := Nat.div_mul_le_self (endS - startS) (blk w1 w2)
    show startS + (endS - startS) / blk w1 w2 / 2 * blk w1 w2 - blk w1 w2 - startS < endS - startS
    omega

/-- newrowtable.h:186-188 (and 233-235): step back while the first value is `c1`. -/
def back (c1 : Int) (s0 startS : Nat) : Nat :=
  if startS > s0 ∧ r1 w1 m startS = c1 then back c1 s0 (startS - blk w1 w2) else startS
  termination_by startS
  decreasing_by have := blk_pos w1 w2; omega

/-- newrowtable.h:167-190: where the linear phase starts. -/
def searchStart (c1 : Int) (s e : Nat) : Nat :=
  if (e - s) / blk w1 w2 > 64 then back w1 w2 m c1 s (narrow w1 w2 m c1 s e) else s

/-- newrowtable.h:191-195: first row with first value `>= c1`, or the last row. -/
def lin1 (c1 : Int) (s e : Nat) : Nat :=
  if r1 w1 m s < c1 ∧ s + blk w1 w2 < e then lin1 c1 (s + blk w1 w2) e else s
  termination_by e - s
  decreasing_by have := blk_pos w1 w2; omega

/-- newrowtable.h:200-206: end of the run of rows whose first value is `c1`. -/
def fixEnd (c1 : Int) (p e : Nat) : Nat :=
  if p < e ∧ r1 w1 m p = c1 then fixEnd c1 (p + blk w1 w2) e else p
  termination_by e - p
  decreasing_by have := blk_pos w1 w2; omega

/-- newrowtable.h:165-210 `setup(c1, s, e)`. -/
def setupC1 (c1 : Int) (s e : Nat) : St :=
  let s := lin1 w1 w2 m c1 (searchStart w1 w2 m c1 s e) e
  if r1 w1 m s ≠ c1 then setup s s
  else setup s (fixEnd w1 w2 m c1 (s + blk w1 w2) e)

/-- newrowtable.h:240-246: first row `>= (c1,c2)`; may stop at `e`. -/
def lin2 (c1 c2 : Int) (s e : Nat) : Nat :=
  if (r1 w1 m s < c1 ∨ (r1 w1 m s = c1 ∧ r2 w1 w2 m s < c2)) ∧ s < e then
    lin2 c1 c2 (s + blk w1 w2) e
  else s
  termination_by e - s
  decreasing_by have := blk_pos w1 w2; omega

/-- newrowtable.h:212-251 `setup(c1, c2, s, e)`. -/
def setupC12 (c1 c2 : Int) (s e : Nat) : St :=
  let s := lin2 w1 w2 m c1 c2 (searchStart w1 w2 m c1 s e) e
  if r1 w1 m s = c1 ∧ r2 w1 w2 m s = c2 ∧ s < e then setup s (s + w1.size + w2.size)
  else setup s s

/-- newrowtable.h:269-274: advance to the first row with first value `>= c1`. -/
def adv1 (c1 : Int) (cur stop : Nat) : Nat :=
  if cur < stop ∧ r1 w1 m cur < c1 then adv1 c1 (cur + blk w1 w2) stop else cur
  termination_by stop - cur
  decreasing_by have := blk_pos w1 w2; omega

/-- newrowtable.h:279-282: inside the run of `c1`, advance to second value `>= c2`. -/
def adv2 (c1 c2 : Int) (cur stop : Nat) : Nat :=
  if cur < stop ∧ r1 w1 m cur = c1 ∧ r2 w1 w2 m cur < c2 then adv2 c1 c2 (cur + blk w1 w2) stop
  else cur
  termination_by stop - cur
  decreasing_by have := blk_pos w1 w2; omega

/-- newrowtable.h:257-288 `moveto(c1, c2)`. -/
def moveto (c1 c2 : Int) (s : St) : St :=
  let ahead := decide (c1 > s.v1 ∨ (s.ign = false ∧ c1 = s.v1 ∧ c2 > s.v2))
  if hasNext s = false ∧ ahead = true then s
  else if ahead then
    let cur := adv1 w1 w2 m c1 s.current s.stop
    if c2 > 0 ∧ cur ≠ s.stop ∧ r1 w1 m cur = c1 then
      { s with current := adv2 w1 w2 m c1 c2 cur s.stop }
    else { s with current := cur }
  else { s with current := s.current - blk w1 w2 }

/-- newrowtable.h:290-292 `mark`. -/
def mark (s : St) : St := { s with mark := s.current }

/-- newrowtable.h:294-296 `reset`. -/
def reset (s : St) : St := { s with current := s.mark }

/-- newrowtable.h:298-307 `ignoreSecondColumn`. -/
def ignoreSecondColumn (s : St) : St :=
  if s.v1 ≠ -1 then
    let r := skipEq w1 w2 m s.v1 s.current s.stop s.count
    { s with ign := true, current := r.1, count := r.2 }
  else { s with ign := true }

/-- newrowtable.h:76-89: count the distinct first values that remain. -/
def countDistinct (prev : Int) (cur stop : Nat) (v1 cnt : Int) : Int × Int :=
  if cur < stop then
    let v := r1 w1 m cur
    countDistinct v (cur + blk w1 w2) stop v (if v ≠ prev then cnt + 1 else cnt)
  else (cnt, v1)
  termination_by stop - cur
  decreasing_by have := blk_pos w1 w2; omega

/-- newrowtable.h:75-93 `getCardinality`: value and new state (with the second column
ignored the call moves the iterator to the end). -/
def getCardinality (s : St) : Int × St :=
  if s.ign then
    let r := countDistinct w1 w2 m s.v1 s.current s.stop s.v1 (if s.v1 ≠ -1 then 1 else 0)
    (r.1, { s with v1 := r.2, current := max s.current s.stop })
  else (((s.stop - s.start) / blk w1 w2 : Nat), s)

/-- The iterator as seen by the client loop; values are the two columns. -/
def itr : Itr St Pair where
  hasNext s := (hasNext s, s)
  next := next w1 w2 m
  val s := (s.v1, s.v2)

/-- The iterator in distinct mode: value is the first column and its count. -/
def itrD : Itr St Pair where
  hasNext s := (hasNext s, s)
  next := next w1 w2 m
  val s := (s.v1, s.count)
end

end Trident.Row
