import Verif.Bytes
/-!
# Common neighbours

`NativeTasks::GetCommon` counts the nodes that are in two lists of neighbours. It is used for
triangles and clustering coefficients (/repo/include/snap/nativetasks.h:88-150). A list is an
array in memory: each entry has a node in `len` bytes, the highest first, and one more byte for
the label.
-/
namespace Trident.Snap

/-- `NativeTasks::sgn` (/repo/include/snap/nativetasks.h:18-20). -/
def sgn (x : Int) : Int := if 0 < x then 1 else if x < 0 then -1 else 0

/-- The loop of `_native_cmp` (/repo/src/snap/nativetasks.cpp:21-25); the bytes are `char`s with
sign. -/
def cmpBytes (m : Mem) : Nat → Nat → Nat → Int
  | 0, _, _ => 0
  | l + 1, a, b => if m a ≠ m b then sgn (sb (m a) - sb (m b)) else cmpBytes m l (a + 1) (b + 1)

/-- The test with the mask in `_native_cmp` (/repo/src/snap/nativetasks.cpp:7-9, 14-16): if one
of the first `d` bytes is not 0. Eight bytes are read in the code, and all but the first `d` are
masked (the machine has the least byte first). -/
def leading (m : Mem) : Nat → Nat → Bool
  | 0, _ => false
  | d + 1, a => m a ≠ 0 || leading m d (a + 1)

/-- `_native_cmp<D, L>` (/repo/src/snap/nativetasks.cpp:4-27). -/
def nativeCmp (m : Mem) (d : Int) (l a b : Nat) : Int :=
  if d > 0 then
    if leading m d.toNat a then 1 else cmpBytes m l (a + d.toNat) b
  else if d < 0 then
    if leading m (-d).toNat b then -1 else cmpBytes m l a (b + (-d).toNat)
  else cmpBytes m l a b

/-- The loop of `_countSame<D, L>` (/repo/src/snap/nativetasks.cpp:29-51); `fuel` bounds the
number of rounds. -/
def countSame (m : Mem) (d : Int) (l e1 len1 e2 len2 : Nat) : Nat → Nat → Nat → Nat → Nat
  | 0, _, _, count => count
  | fuel + 1, p1, p2, count =>
    if p1 < e1 ∧ p2 < e2 then
      let c := nativeCmp m d l p1 p2
      if c > 0 then countSame m d l e1 len1 e2 len2 fuel p1 (p2 + (len2 + 1)) count
      else if c < 0 then countSame m d l e1 len1 e2 len2 fuel (p1 + (len1 + 1)) p2 count
      else countSame m d l e1 len1 e2 len2 fuel (p1 + (len1 + 1)) (p2 + (len2 + 1)) (count + 1)
    else count

/-- `GetOutLenField` and `GetInLenField` (/repo/include/snap/tnode.h:92-130): the width of the
nodes in a list, from the strategy of its table. -/
def lenField (strat : UInt8) : Nat :=
  match strat.toNat / 8 % 4 with
  | 0 => 1
  | 1 => 2
  | 2 => 4
  | _ => 5

/-- `NativeTasks::GetCommon` (/repo/src/snap/nativetasks.cpp:53-200): `none` is `throw 10`. -/
def getCommon (m : Mem) (p1 len1 s1 p2 len2 s2 : Nat) : Option Nat :=
  let d : Int := (len1 : Int) - len2
  let l := min len1 len2
  if -4 ≤ d ∧ d ≤ 4 ∧ 1 ≤ l ∧ l ≤ 5 then
    some (countSame m d l (p1 + s1 * (len1 + 1)) len1 (p2 + s2 * (len2 + 1)) len2 (s1 + s2) p1 p2 0)
  else none

end Trident.Snap
