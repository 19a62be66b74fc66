import Verif.Itr
/-!
# `ArrayItr`: an iterator over a sorted vector of pairs

/repo/src/trident/iterators/arrayitr.cpp and /repo/include/trident/iterators/arrayitr.h.  Used for
permutations whose table is not stored (the pairs of the partner table, reversed and sorted).

The vector `array` is the list `l`; positions are natural numbers (the code uses `int`: a vector of
2^31 or more pairs is not modelled). `array->at(i)` is `at l i`; the theorems show that the
positions read are in range (otherwise `at` throws).
-/
namespace Trident.Arr

/-- `array->at(i)`. -/
def get (l : List (Nat × Nat)) (i : Nat) : Nat × Nat := l[i]?.getD (0, 0)

/-- The fields of `ArrayItr` (arrayitr.h:35-46), without the vector itself. -/
structure St where
  pos : Nat
  v1 : Int
  v2 : Int
  c1 : Int
  c2 : Int
  hnc : Bool
  n : Bool
  ign : Bool
  count : Nat
  markPos : Nat

/-- arrayitr.cpp:138-162 `binarySearch`. -/
def binarySearch (l : List (Nat × Nat)) (key : Nat) (e : Int) (low high : Int) : Int :=
  if low ≤ high then
    let mid := (low + high) / 2
    let v := (get l mid.toNat).1
    if v < key then binarySearch l key e (mid + 1) high
    else if v > key then binarySearch l key e low (mid - 1)
    else if low ≠ mid then binarySearch l key e low mid
    else mid
  else if low ≥ e then -low - 1 else high
termination_by (high - low + 1).toNat
decreasing_by all_goals omega

/-- The loop of arrayitr.cpp:180-183. -/
def initSkip (l : List (Nat × Nat)) (c1 c2 : Int) (pos : Nat) : Nat :=
  if pos < l.length then
    if ((get l pos).1 : Int) = c1 ∧ ((get l pos).2 : Int) < c2 then initSkip l c1 c2 (pos + 1) else pos
  else pos
termination_by l.length - pos

/-- arrayitr.cpp:164-198 `init`. -/
def init (l : List (Nat × Nat)) (c1 c2 : Int) : St :=
  let s : St := { pos := 0, v1 := -1, v2 := -1, c1 := c1, c2 := c2, hnc := true, n := true, ign := false,
                  count := 0, markPos := 0 }
  if c1 ≠ -1 then
    let p := binarySearch l c1.toNat l.length 0 (l.length - 1)
    if p ≥ 0 then
      if c2 ≠ -1 then
        let q := initSkip l c1 c2 p.toNat
        { s with pos := q, n := decide (q < l.length) && decide (((get l q).2 : Int) = c2) }
      else { s with pos := p.toNat }
    else { s with n := false }
  else s

/-- The loop of arrayitr.cpp:39-45. -/
def skipEq (l : List (Nat × Nat)) (v1 : Int) (pos : Nat) : Nat :=
  if pos < l.length then
    if ((get l pos).1 : Int) ≠ v1 then pos else skipEq l v1 (pos + 1)
  else pos
termination_by l.length - pos

/-- arrayitr.cpp:30-68 `hasNext`. -/
def hasNext (l : List (Nat × Nat)) (s : St) : Bool × St :=
  if s.hnc then (s.n, s)
  else
    let pos := if s.ign then skipEq l s.v1 s.pos else s.pos
    let n :=
      if s.c1 = -1 then decide (pos < l.length)
      else
        !(decide (pos = l.length) || decide (((get l pos).1 : Int) ≠ s.c1) ||
          (decide (s.c2 ≠ -1) && decide (((get l pos).2 : Int) ≠ s.c2)))
    (n, { s with pos := pos, n := n, hnc := true })

/-- arrayitr.cpp:89-95 `next`. -/
def next (l : List (Nat × Nat)) (s : St) : St :=
  { s with v1 := (get l s.pos).1, v2 := (get l s.pos).2, pos := s.pos + 1, hnc := false, count := 0 }

/-- The loop of arrayitr.cpp:79-83: new position and count. -/
def countLoop (l : List (Nat × Nat)) (pos count : Nat) : Nat × Nat :=
  if pos < l.length then
    if (get l pos).1 = (get l (pos - 1)).1 then countLoop l (pos + 1) (count + 1) else (pos, count)
  else (pos, count)
termination_by l.length - pos

/-- arrayitr.cpp:70-87 `getCount`: it moves the iterator. -/
def getCount (l : List (Nat × Nat)) (s : St) : St :=
  if s.count = 0 then
    let r := countLoop l s.pos 1
    { s with pos := r.1, count := r.2 }
  else s

/-- The loop of arrayitr.cpp:127-130. -/
def seekLoop (l : List (Nat × Nat)) (c1 c2 : Int) (pos : Nat) : Nat :=
  if pos < l.length then
    if Pair.lt ((get l pos).1, (get l pos).2) (c1, c2) then seekLoop l c1 c2 (pos + 1) else pos
  else pos
termination_by l.length - pos

/-- arrayitr.cpp:110-132 `moveto`. -/
def moveto (l : List (Nat × Nat)) (c1 c2 : Int) (s : St) : St :=
  if s.v1 ≥ c1 ∧ (s.ign ∨ s.v1 > c1 ∨ s.v2 ≥ c2) then
    { s with pos := s.pos - 1, hnc := true, n := true }
  else
    let p := binarySearch l c1.toNat l.length s.pos (l.length - 1)
    let p := if p < 0 then -p - 1 else p
    { s with pos := seekLoop l c1 c2 p.toNat, hnc := false }

/-- arrayitr.cpp:134-136 `ignoreSecondColumn`. -/
def ignoreSecondColumn (s : St) : St := { s with ign := true }

/-- arrayitr.cpp:101-103 `mark`. -/
def mark (s : St) : St := { s with markPos := s.pos }

/-- arrayitr.cpp:105-108 `reset`. -/
def reset (s : St) : St := { s with pos := s.markPos, hnc := false }

/-- arrayitr.cpp:206-212, the loop counting the first values. -/
def cardLoop : List (Nat × Nat) → Int → Nat → Nat
  | [], _, c => c
  | p :: l, v, c => if (p.1 : Int) ≠ v then cardLoop l p.1 (c + 1) else cardLoop l v c

/-- arrayitr.cpp:200-230 `getCardinality`. -/
def getCardinality (l : List (Nat × Nat)) (s : St) : Nat :=
  if s.ign then cardLoop l (-1) 0 else l.length

/-- The iterator as seen by the client loop. -/
def itr (l : List (Nat × Nat)) : Itr St Pair where
  hasNext := hasNext l
  next := next l
  val s := (s.v1, s.v2)

/-- The iterator in distinct mode, for a client that asks for the count of each value. -/
def itrD (l : List (Nat × Nat)) : Itr St Pair where
  hasNext := hasNext l
  next s := getCount l (next l s)
  val s := (s.v1, s.count)

end Trident.Arr
