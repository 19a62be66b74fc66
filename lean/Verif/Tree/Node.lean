import Verif.Bytes
/-!
# The keys of a node of a term tree

Models `/repo/src/trident/tree/node.cpp` (numeric keys).  Keys are 64-bit integers, modelled as `Int` without wrap-around.  The
array `keys` is modelled by the list of its `size - 1` meaningful entries; what lies behind them is never read.
-/
namespace Trident.BTree

/-- node.h:44-54, the fields of a node that describe its keys. -/
structure Keys where
  size : Nat
  first : Int
  /-- The offsets from `first` of the keys after the first; unused if `consecutive`. -/
  offs : List Int
  consecutive : Bool
  step : Int
  deriving DecidableEq, Repr

/-- node.h:81-94, the constructor of `Node`. -/
def Keys.empty : Keys := ⟨0, 0, [], true, 1⟩

/-- The result of `pos`: `p` (the key is there) or `-p - 1` (the key belongs there). -/
inductive Where
  | found (p : Nat)
  | ins (p : Nat)
  deriving DecidableEq, Repr

/-- node.cpp:66-77, the binary search; `hi` is `high + 1`. -/
def bsearch (a : Nat → Int) (x : Int) (lo hi : Nat) : Where :=
  if h : lo < hi then
    let mid := (lo + (hi - 1)) / 2
    if a mid < x then bsearch a x (mid + 1) hi
    else if x < a mid then bsearch a x lo mid
    else .found mid
  else .ins lo
termination_by hi - lo
decreasing_by all_goals omega

/-- node.cpp:33-80 `pos(int64_t)`. -/
def Keys.pos (n : Keys) (key : Int) : Where :=
  if n.size = 0 ∨ key < n.first then .ins 0
  else if n.consecutive then
    if key - n.first < n.size * n.step then
      if n.step > 1 then
        if (key - n.first) % n.step = 0 then .found ((key - n.first) / n.step).toNat
        else .ins ((key - n.first) / n.step + 1).toNat
      else .found (key - n.first).toNat
    else .ins n.size
  else if key - n.first = 0 then .found 0
  else if n.size = 1 then .ins 1
  else if key - n.first = n.offs.getD (n.size - 2) 0 then .found (n.size - 1)
  else if key - n.first > n.offs.getD (n.size - 2) 0 then .ins n.size
  else match bsearch (fun i => n.offs.getD i 0) (key - n.first) 0 (n.size - 2) with
    | .found m => .found (m + 1)
    | .ins l => .ins (l + 1)

/-- node.cpp:82-92 `localLargestNumericKey`. -/
def Keys.largest (n : Keys) : Int :=
  if n.size = 1 then n.first
  else if n.consecutive then n.first + (n.size - 1 : Int) * n.step
  else n.first + n.offs.getD (n.size - 2) 0

/-- node.cpp:180-190 `keyAt`. -/
def Keys.keyAt (n : Keys) (p : Nat) : Int :=
  if n.consecutive then n.first + p * n.step
  else if p > 0 then n.first + n.offs.getD (p - 1) 0
  else n.first

/-- node.cpp:224-246 `split`: the two halves; the new node comes from the constructor.  `min` is `max / 2`. -/
def Keys.split (max min : Nat) (n : Keys) : Keys × Keys :=
  ({ n with size := min, offs := n.offs.take (min - 1) },
   if n.consecutive then ⟨min, n.first + min, [], true, 1⟩
   else if n.offs.getD (max - 2) 0 - n.offs.getD (min - 1) 0 + 1 = min then ⟨min, n.first + n.offs.getD (min - 1) 0, [], true, 1⟩
   else ⟨min, n.first + n.offs.getD (min - 1) 0,
     (List.range (min - 1)).map fun i => n.offs.getD (min + i) 0 - n.offs.getD (min - 1) 0, false, 1⟩)

/-- `memmove` by one from `p` on, then a write at `p`. -/
def insertAt {α} (l : List α) (p : Nat) (x : α) : List α := l.take p ++ x :: l.drop p

/-- node.cpp:248-295 `putkeyAt(nTerm, int)`.  If the node is consecutive and `pos` is inside of it the new offset overwrites one of
the old ones and the last entry of the array is whatever it held (here 0). -/
def Keys.putkeyAt (n : Keys) (key : Int) (pos : Nat) : Keys :=
  if pos = 0 then
    if n.size = 0 then { n with first := key, size := n.size + 1 }
    else if n.consecutive then
      ⟨n.size + 1, key, (List.range n.size).map fun (i : Nat) => n.first - key + (i : Int), false, n.step⟩
    else ⟨n.size + 1, key, (n.first - key) :: n.offs.map fun o => o + (n.first - key), false, n.step⟩
  else if n.consecutive then
    if (pos : Int) ≠ key - n.first then
      ⟨n.size + 1, n.first, ((List.range (n.size - 1)).map (fun (i : Nat) => (i : Int) + 1) ++ [0]).set (pos - 1) (key - n.first), false, n.step⟩
    else { n with size := n.size + 1 }
  else ⟨n.size + 1, n.first, insertAt n.offs (pos - 1) (key - n.first), false, n.step⟩

/-- node.cpp:304-338 `removeKeyAtPos(currentSize - 1)`, called by `removeLastKey` (node.h:140-142). -/
def Keys.removeLast (n : Keys) : Keys := { n with size := n.size - 1, offs := n.offs.take (n.size - 2) }

/-- node.cpp:304-338 `removeKeyAtPos(0)`, called by `removeFirstKey` (node.h:144-146). -/
def Keys.removeFirst (n : Keys) : Keys :=
  if n.size > 1 then
    if n.consecutive then { n with size := n.size - 1, first := n.first + 1 }
    else ⟨n.size - 1, n.first + n.offs.getD 0 0, n.offs.tail.map fun o => o - n.offs.getD 0 0, false, n.step⟩
  else { n with size := n.size - 1 }

/-- The keys of a node (not in the code). -/
def Keys.list (n : Keys) : List Int := (List.range n.size).map n.keyAt

/-! ## Serialisation -/

/-- node.cpp:138-158, the byte `step`. -/
def Keys.stepByte (n : Keys) : Nat :=
  if n.consecutive || (n.offs.getD 0 0 == 1 && n.offs.getD (n.size - 2) 0 == (n.size : Int) - 1) then 1
  else if 0 < n.offs.getD 0 0 ∧ n.offs.getD 0 0 < 256 ∧ n.offs.getD (n.size - 2) 0 % n.offs.getD 0 0 = 0 ∧
      n.offs.getD (n.size - 2) 0 / n.offs.getD 0 0 = (n.size : Int) - 1 then
    if (List.range (n.size - 2)).all fun i => n.offs.getD (i + 1) 0 - n.offs.getD i 0 == n.offs.getD 0 0 then (n.offs.getD 0 0).toNat else 0
  else 0

/-- node.cpp:131-178 `serialize` for numeric keys, which are not negative.  `encode_vlong` of kognac is taken to be an encoding like
`encode_vlong2` (`encV`). -/
def Keys.serialize (n : Keys) : List UInt8 :=
  encBE 4 n.size ++
  if n.size > 0 then
    encBE 8 n.first.toNat ++
    if n.size > 1 then
      UInt8.ofNat n.stepByte :: if n.stepByte = 0 then n.offs.flatMap fun o => encV o.toNat else []
    else []
  else []

/-- The loop that reads the offsets. -/
def readOffs (m : Mem) (fuel : Nat) : Nat → Nat → List Int × Nat
  | 0, a => ([], a)
  | c + 1, a =>
    let r := decVMem m fuel a
    let q := readOffs m fuel c r.2
    ((r.1 : Int) :: q.1, q.2)

/-- node.cpp:94-129 `unserialize` into a node `n0` (fresh or recycled) for numeric keys: `step` is a signed `char`.
`fuel` bounds the number of bytes of one number. -/
def Keys.unserialize (n0 : Keys) (m : Mem) (fuel a : Nat) : Keys × Nat :=
  let size := (rdInt m a).toNat
  if size > 0 then
    let first := rdLong m (a + 4)
    if size > 1 then
      if sb (m (a + 12)) > 0 then ({ n0 with size := size, first := first, consecutive := true, step := sb (m (a + 12)) }, a + 13)
      else
        let r := readOffs m fuel (size - 1) (a + 13)
        ({ n0 with size := size, first := first, consecutive := false, offs := r.1 }, r.2)
    else ({ n0 with size := size, first := first }, a + 12)
  else ({ n0 with size := size }, a + 4)

end Trident.BTree
