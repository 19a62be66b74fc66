import Verif.Bytes
/-!
# The index of a table file

Models /repo/src/trident/binarytables/fileindex.cpp and fileindex.h: entries with a key, a file and a position, and further indexes for some keys.
`encode_vlong` of kognac is not in /repo; it is a parameter (`Codec`).  Not modelled: the growth of the buffer in `serialize` (a list of bytes here), differences that are negative, and more than 2^31 entries.
-/
namespace Trident.FIdx

/-- One element of `keys`, `files` and `positions` (fileindex.h:38-40). -/
structure Entry where
  key : Nat
  file : Nat
  pos : Nat
deriving DecidableEq

mutual
/-- fileindex.h:38-44: the entries and the additional indexes. -/
inductive FI
  | mk (es : List Entry) (as : FIs)
/-- fileindex.h:43-44 `additionalKeys` and `additionalIndices`. -/
inductive FIs
  | nil
  | cons (key : Nat) (ix : FI) (rest : FIs)
end

/-- `Utils::encode_vlong` and `Utils::decode_vlong`. -/
structure Codec where
  enc : Nat → List UInt8
  dec : List UInt8 → Option (Nat × List UInt8)

/-- `Utils::decode_short` and the step of two bytes (fileindex.cpp:62, 75). -/
def decShort : List UInt8 → Option (Nat × List UInt8)
  | a :: b :: l => some (a.toNat * 256 + b.toNat, l)
  | _ => none

/-- The loop over the entries in `serialize` (fileindex.cpp:181-203); `old` is the previous entry, if there is one. -/
def writeEntries (C : Codec) : Option Entry → List Entry → List UInt8
  | _, [] => []
  | old, e :: es =>
    let kv := match old with
      | some p => if p.file = e.file then (e.key - p.key, e.pos - p.pos) else (e.key, e.pos)
      | none => (e.key, e.pos)
    C.enc kv.1 ++ (encV kv.2 ++ (encBE 2 e.file ++ writeEntries C (some e) es))

/-- `FIs.length`: `additionalSize`. -/
def FIs.length : FIs → Nat
  | .nil => 0
  | .cons _ _ r => r.length + 1

mutual
/-- fileindex.cpp:166-221 `serialize`. -/
def write (C : Codec) : FI → List UInt8
  | .mk es as => encV es.length ++ (writeEntries C none es ++ (match as with
    | .nil => [0]
    | .cons k ix r => 1 :: (encV (r.length + 1) ++ (encV k ++ (write C ix ++ writeMore C k r)))))
/-- The loop over the additional indexes (fileindex.cpp:209-215); the first argument is `diffKey`. -/
def writeMore (C : Codec) (diff : Nat) : FIs → List UInt8
  | .nil => []
  | .cons k ix r => encV (k - diff) ++ (write C ix ++ writeMore C k r)
end

/-- The loop over the entries in `unserialize` (fileindex.cpp:54-76). -/
def readEntries (C : Codec) : Nat → Option Entry → List UInt8 → Option (List Entry × List UInt8)
  | 0, _, l => some ([], l)
  | n + 1, old, l =>
    (C.dec l).bind fun k => (decV k.2).bind fun p => (decShort p.2).bind fun f =>
      let e : Entry := match old with
        | some o => if f.1 = o.file then ⟨k.1 + o.key, f.1, p.1 + o.pos⟩ else ⟨k.1, f.1, p.1⟩
        | none => ⟨k.1, f.1, p.1⟩
      (readEntries C n (some e) f.2).map fun r => (e :: r.1, r.2)

mutual
/-- fileindex.cpp:43-97 `unserialize`.  The first argument bounds the depth of the calls and loops. -/
def read (C : Codec) : Nat → List UInt8 → Option (FI × List UInt8)
  | 0, _ => none
  | f + 1, l =>
    (decV l).bind fun n => (readEntries C n.1 none n.2).bind fun es =>
      match es.2 with
      | [] => none
      | b :: l' =>
        if b = 1 then (decV l').bind fun a => (readMore C f a.1 0 a.2).map fun r => (.mk es.1 r.1, r.2)
        else some (.mk es.1 .nil, l')
/-- The loop over the additional indexes (fileindex.cpp:84-90). -/
def readMore (C : Codec) : Nat → Nat → Nat → List UInt8 → Option (FIs × List UInt8)
  | 0, _, _, _ => none
  | _ + 1, 0, _, l => some (.nil, l)
  | f + 1, n + 1, diff, l =>
    (decV l).bind fun k => (read C f k.2).bind fun ix => (readMore C f n (k.1 + diff) ix.2).map fun r => (.cons (k.1 + diff) ix.1 r.1, r.2)
end

/-! ## Lookups -/

/-- The loop in `idx` (fileindex.cpp:123-135). -/
def search (keys : List Nat) (key : Nat) : Nat → Int → Int → Int
  | 0, low, _ => low
  | n + 1, low, high =>
    if low ≤ high then
      let mid := (low + high) / 2
      let v := keys.getD mid.toNat 0
      if v < key then search keys key n (mid + 1) high
      else if v > key then search keys key n low (mid - 1)
      else mid
    else low

/-- fileindex.cpp:111-136 `idx(start, key)`; `none`: it reads outside of the array. -/
def idx (keys : List Nat) (start key : Nat) : Option Int :=
  match keys[start]? with
  | none => none
  | some k =>
    if key ≤ k then some start
    else if start + 1 < keys.length ∧ key < keys.getD (start + 1) 0 then some (start + 1)
    else some (search keys key (keys.length + 1) start (keys.length - 1))

/-- The loop in `additional_idx` (fileindex.cpp:146-159). -/
def findKey (keys : List Nat) (key : Nat) : Nat → Int → Int → Option Nat
  | 0, _, _ => none
  | n + 1, low, high =>
    if low ≤ high then
      let i := (low + high) / 2
      let v := keys.getD i.toNat 0
      if v < key then findKey keys key n (i + 1) high
      else if v > key then findKey keys key n low (i - 1)
      else some i.toNat
    else none

/-- fileindex.cpp:142-160 `additional_idx`: the position of the additional index, `none` is NULL. -/
def additional (keys : List Nat) (key : Nat) : Option Nat := findKey keys key (keys.length + 1) 0 (keys.length - 1)

/-! ## Adding entries -/

/-- The arrays (fileindex.h:35, 38-41): `data` has `lengthArrays` elements after the first `add`; `none` was never written. -/
structure Arrs where
  cap : Nat
  size : Nat
  data : List (Option Entry)

/-- fileindex.cpp:29-41: the constructor. -/
def Arrs.new : Arrs := ⟨0, 0, []⟩

/-- fileindex.cpp:43-97: `unserialize` sets the arrays and `size`, but not `lengthArrays`. -/
def Arrs.loaded (es : List Entry) : Arrs := ⟨0, es.length, es.map some⟩

/-- fileindex.h:46-65 `checkLengthArrays(size)`. -/
def Arrs.check (a : Arrs) : Arrs :=
  if a.size ≥ a.cap then
    let n := max (max (a.size * 2) 128) (a.cap * 3 / 2)
    let kept := if a.size > 0 then a.data.take a.cap else []
    { a with cap := n, data := kept ++ List.replicate (n - kept.length) none }
  else a

/-- fileindex.cpp:223-229 `add`. -/
def Arrs.add (a : Arrs) (e : Entry) : Arrs :=
  let b := a.check
  { b with data := b.data.set b.size (some e), size := b.size + 1 }

/-- The entries that `key`, `file` and `pos` return (fileindex.cpp:99-109). -/
def Arrs.entries (a : Arrs) : List (Option Entry) := a.data.take a.size

end Trident.FIdx
