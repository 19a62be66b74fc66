import Verif.Tree.Tree
/-!
# The coordinates stored in the leaves

Models `addCoordinates`, `serialize_values`, `parseInternalLine` and the callers of them in
`/repo/src/trident/tree/leaf.cpp`, and `TermCoordinates` of `/repo/include/trident/tree/coordinates.h`.
-/
namespace Trident.BTree

/-- coordinates.h:43-46, what is stored for one permutation.  The numbers are not negative. -/
structure Info where
  n : Nat
  file : Nat
  pos : Nat
  strat : UInt8
  deriving DecidableEq, Repr

/-- coordinates.h:32-39.  The list `next` is a Lean list. -/
structure Coord where
  perm : Nat
  info : Info
  deriving DecidableEq, Repr

/-- coordinates.h:41-47 `TermCoordinates`: what is stored for each permutation, `none` if it is not active. -/
abbrev TermCoords := Nat → Option Info

/-- coordinates.h:59-71 `set(Coordinates*)`. -/
def coordsOf (l : List Coord) : TermCoords := l.foldl (fun f c => fun p => if p = c.perm then some c.info else f p) fun _ => none

/-- leaf.cpp:599-640, one round of the loop.  The first list are the elements up to `prev`, the second one begins with `current`. -/
def addStep (v : TermCoords) (s : List Coord × List Coord) (i : Nat) : List Coord × List Coord :=
  match v i with
  | some x =>
    match s.2.dropWhile fun c => decide (c.perm < i) with
    | [] => (s.1 ++ s.2.takeWhile (fun c => decide (c.perm < i)), [⟨i, x⟩])
    | c :: cs =>
      if c.perm > i then (s.1 ++ s.2.takeWhile (fun c => decide (c.perm < i)), ⟨i, x⟩ :: c :: cs)
      else (s.1 ++ s.2.takeWhile (fun c => decide (c.perm < i)), ⟨i, x⟩ :: cs)
  | none =>
    match s.2 with
    | c :: cs => if c.perm = i then (s.1, cs) else s
    | [] => s

/-- leaf.cpp:593-642 `addCoordinates`. -/
def addCoordinates (list : List Coord) (v : TermCoords) : List Coord :=
  let r := (List.range 6).foldl (addStep v) ([], list)
  r.1 ++ r.2

/-- leaf.cpp:581-585 on a tree of coordinates. -/
def Root.putCoords (max : Nat) (r : Root (List Coord)) (key : Int) (v : TermCoords) : Root (List Coord) :=
  r.put (addCoordinates []) addCoordinates max key v

/-- leaf.cpp:300-307, 727-744: `get` of coordinates.  (A key stored without any coordinates is not modelled: `getValueAtPos` takes
its empty list for one that has not been read from disk.) -/
def Root.getCoords (r : Root (List Coord)) (key : Int) : Option TermCoords := (r.get key).map coordsOf

/-! ## Serialisation -/

/-- leaf.cpp:234-238. -/
def Coord.bytes (c : Coord) : List UInt8 := encV c.info.n ++ encV c.info.file ++ encV c.info.pos ++ [c.info.strat]

/-- leaf.cpp:232-241 `combinations`. -/
def combinations (l : List Coord) : Nat := l.foldl (fun a c => a ||| 1 <<< c.perm) 0

/-- leaf.cpp:217, 223: the value of `diff` for entry `i`. -/
def diffAt (vals : List (List Coord)) (i : Nat) : Nat := 4 + ((vals.take i).flatMap fun l => l.flatMap Coord.bytes).length

/-- leaf.cpp:205-251 `serialize_values`; `none` if the process exits. -/
def serializeValues (vals : List (List Coord)) : Option (List UInt8) :=
  if (List.range vals.length).all fun i => diffAt vals i ≤ 65535 then
    some (vals.map (fun l => UInt8.ofNat (combinations l)) ++ (List.range vals.length).flatMap (fun i => encBE 2 (diffAt vals i)) ++
      encBE 4 (diffAt vals vals.length) ++ vals.flatMap fun l => l.flatMap Coord.bytes)
  else none

/-- leaf.cpp:645 `NCOMBS`. -/
def NCOMBS : List Nat := [0, 1, 1, 2, 1, 2, 2, 3, 1, 2, 2, 3, 2, 3, 3, 4, 1, 2, 2, 3, 2, 3, 3, 4, 2, 3, 3, 4, 3, 4, 4, 5, 1, 2, 2, 3, 2, 3, 3, 4, 2, 3, 3, 4, 3, 4, 4, 5, 2, 3, 3, 4, 3, 4, 4, 5, 3, 4, 4, 5, 4, 5, 5, 6]

/-- leaf.cpp:673-676, the loop over the bits that are not set (there is one that is: the fuel is not used up). -/
def skipBits : Nat → Nat → Nat → Nat × Nat
  | 0, perms, idx => (perms, idx)
  | f + 1, perms, idx => if perms % 2 = 1 then (perms, idx) else skipBits f (perms / 2) (idx + 1)

/-- leaf.cpp:667-692, the loop over the elements.  The numbers have at most 64 bits, that is ten bytes. -/
def parseLoop (m : Mem) : Nat → Nat → Nat → Nat → List Coord
  | 0, _, _, _ => []
  | k + 1, perms, idx, a =>
    let n := decVMem m 10 a
    let file := decVMem m 10 n.2
    let pos := decVMem m 10 file.2
    let s := skipBits 8 perms idx
    ⟨s.2, ⟨n.1, file.1 % 65536, pos.1, m pos.2⟩⟩ :: parseLoop m k (s.1 / 2) (s.2 + 1) (pos.2 + 1)

/-- leaf.cpp:650-705 `parseInternalLine`; `rawNode` is at address `a`, `size` is the size of the leaf. -/
def parseInternalLine (m : Mem) (a size pos : Nat) : List Coord :=
  parseLoop m (NCOMBS.getD (m (a + pos)).toNat 0) (m (a + pos)).toNat 0 (a + ((rdShort m (a + (size + pos * 2))).toNat + size * 3))

/-- leaf.cpp:253-268 `serialize` of a leaf with coordinates. -/
def Leaf.serialize (l : Leaf (List Coord)) : Option (List UInt8) := (serializeValues l.vals).map (l.keys.serialize ++ ·)

/-- leaf.cpp:153-177: the rest of a leaf with coordinates, after its keys (they end at address `r.2`). -/
def Leaf.withLines (m : Mem) (r : Keys × Nat) : Leaf (List Coord) := ⟨r.1, (List.range r.1.size).map (parseInternalLine m r.2 r.1.size)⟩

/-- leaf.cpp:179-196 `unserialize` of a leaf with coordinates into a leaf with the keys `n0`. -/
def Leaf.unserialize (n0 : Keys) (m : Mem) (a : Nat) : Leaf (List Coord) :=
  Leaf.withLines m (Keys.unserialize n0 m 10 a)

/-- leaf.cpp:198-203, 253-268: `serialize` of a leaf with numbers. -/
def Leaf.serializeNums (l : Leaf Nat) : List UInt8 := l.keys.serialize ++ l.vals.flatMap encV

/-- leaf.cpp:130-151: the rest of a leaf with numbers. -/
def Leaf.withNums (m : Mem) (r : Keys × Nat) : Leaf Nat := ⟨r.1, (readOffs m 10 r.1.size r.2).1.map Int.toNat⟩

/-- leaf.cpp:179-196: `unserialize` of a leaf with numbers. -/
def Leaf.unserializeNums (n0 : Keys) (m : Mem) (a : Nat) : Leaf Nat :=
  Leaf.withNums m (Keys.unserialize n0 m 10 a)

end Trident.BTree
