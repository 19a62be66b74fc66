import Verif.Bytes
import Verif.Itr
/-!
# Column layout (`NewColumnTable`, `NewColumnTableInserter`)

/repo/include/trident/binarytables/newcolumntable.h and
/repo/src/trident/binarytables/newcolumntableinserter.cpp.
A table is: two header bytes (field widths), number of groups, number of pairs, one block
per group (first value, group size, index of its first second-value), all second values.
-/
namespace Trident

/-- kognac `Utils::decode_longFixedBytes`: big-endian unsigned number of `w` bytes
(not in /repo, trusted base). -/
def rdN : Nat → Mem → Nat → Int
  | 0, _, _ => 0
  | w + 1, m, a => ub (m a) * 256 ^ w + rdN w m (a + 1)

/-- kognac `Utils::numBytesFixedLength`: number of bytes needed (at least one). -/
def nbytes (n : Nat) : Nat :=
  if n < 256 then 1 else nbytes (n / 256) + 1
  termination_by n
  decreasing_by omega

namespace Column

/-! ## Inserter -/

/-- Fields of `NewColumnTableInserter` (newcolumntableinserter.h:28-43).  The temporary files
are modelled by the lists `off1`, `off2` of the records written to them (16 and 8 byte
records of `encode_long` fields, read back in order); `offloadedElements1/2` are their lengths. -/
structure Ins where
  first : List (Nat × Nat)
  second : List Nat
  off1 : List (Nat × Nat)
  off2 : List Nat
  largest1 : Nat
  largest2 : Nat
  largestGroup : Nat
  prev : Int
  prevtotal : Nat

/-- newcolumntableinserter.cpp:26-37 `startAppend`. -/
def startAppend : Ins :=
  { first := [], second := [], off1 := [], off2 := [], largest1 := 0, largest2 := 0,
    largestGroup := 0, prev := -1, prevtotal := 0 }

/-- newcolumntableinserter.cpp:40-48, a new first value. -/
def newFirst (s : Ins) (t1 : Nat) : Ins :=
  if s.prev ≠ t1 then
    let total := s.second.length + s.off2.length
    { s with
      largestGroup := if total - s.prevtotal > s.largestGroup then total - s.prevtotal
                      else s.largestGroup
      first := s.first ++ [(t1, total)]
      prevtotal := total
      prev := t1 }
  else s

/-- newcolumntableinserter.cpp:49-55. -/
def pushSecond (s : Ins) (t : Nat × Nat) : Ins :=
  { s with
    second := s.second ++ [t.2]
    largest2 := if t.2 ≥ s.largest2 then t.2 else s.largest2
    largest1 := if t.1 ≥ s.largest1 then t.1 else s.largest1 }

/-- newcolumntableinserter.cpp:57-111: move the collected terms to the temporary files when
there are at least `thr` of them (`thresholdToOffload`). -/
def offload (thr : Nat) (s : Ins) : Ins :=
  let s := if s.first.length ≥ thr then { s with off1 := s.off1 ++ s.first, first := [] } else s
  if s.second.length ≥ thr then { s with off2 := s.off2 ++ s.second, second := [] } else s

/-- newcolumntableinserter.cpp:39-112 `append`. -/
def append (thr : Nat) (s : Ins) (t : Nat × Nat) : Ins :=
  offload thr (pushSecond (newFirst s t.1) t)

/-- One block of the first column: key, size of the group, index of its first second-value. -/
def encBlock (b1 bc bo : Nat) (k c o : Nat) : List UInt8 := encBE b1 k ++ encBE bc c ++ encBE bo o

/-- newcolumntableinserter.cpp:183-193: the blocks of the first values still in memory. -/
def writeFirsts (b1 bc bo total : Nat) : List (Nat × Nat) → List UInt8
  | [] => []
  | [v] => encBlock b1 bc bo v.1 (total - v.2) v.2
  | v :: v' :: r => encBlock b1 bc bo v.1 (v'.2 - v.2) v.2 ++ writeFirsts b1 bc bo total (v' :: r)

/-- newcolumntableinserter.cpp:152-162: one record of the first temporary file; the state is
`prevkey`, `prevsize` (none: -1) and the bytes written. -/
def offStep (b1 bc bo : Nat) (s : Option (Nat × Nat) × List UInt8) (v : Nat × Nat) :
    Option (Nat × Nat) × List UInt8 :=
  (some v, match s.1 with
    | some p => s.2 ++ encBlock b1 bc bo p.1 (v.2 - p.2) p.2
    | none => s.2)

/-- newcolumntableinserter.cpp:140-181: the blocks of the offloaded first values. -/
def writeOff (b1 bc bo total : Nat) (off tmp : List (Nat × Nat)) : List UInt8 :=
  let r := off.foldl (offStep b1 bc bo) (none, [])
  match r.1 with
  | none => r.2
  | some p =>
    match tmp with
    | v :: _ => r.2 ++ encBlock b1 bc bo p.1 (v.2 - p.2) p.2
    | [] => r.2 ++ encBlock b1 bc bo p.1 (total - p.2) p.2

/-- newcolumntableinserter.cpp:114-219 `stopAppend`: the bytes of the table. -/
def stopAppend (s : Ins) : List UInt8 :=
  let total := s.second.length + s.off2.length
  let lg := if total - s.prevtotal > s.largestGroup then total - s.prevtotal else s.largestGroup
  let b1 := nbytes s.largest1
  let b2 := nbytes s.largest2
  let bc := nbytes lg
  let bo := nbytes total
  [UInt8.ofNat (b1 * 8 + b2 % 8), UInt8.ofNat (bc * 8 + bo % 8)]
    ++ encV (s.first.length + s.off1.length) ++ encV total
    ++ writeOff b1 bc bo total s.off1 s.first ++ writeFirsts b1 bc bo total s.first
    ++ s.off2.flatMap (encBE b2) ++ s.second.flatMap (encBE b2)

/-- The bytes of the table: `startAppend`, `append` for each pair, `stopAppend`. -/
def encode (thr : Nat) (l : List (Nat × Nat)) : List UInt8 :=
  stopAppend (l.foldl (append thr) startAppend)

/-! ## Iterator -/

/-- The fields of `NewColumnTable` (newcolumntable.h:42-73) that its methods read. -/
structure St where
  b1 : Nat
  b2 : Nat
  bc : Nat
  bo : Nat
  v1 : Int
  v2 : Int
  nTerms : Nat
  nUnique : Nat
  count : Nat
  scanned : Nat
  stop : Nat
  startpos1 : Nat
  startpos2 : Nat
  startblock2 : Nat
  pos1 : Nat
  pos2 : Nat
  ign : Bool
  sv1 : Int
  spos1 : Nat
  scount : Nat
  sscanned : Nat
  sstartblock2 : Nat
  sv2 : Int
  spos2 : Nat
  deriving Repr, DecidableEq

/-- newcolumntable.h:394 `bytesFirstBlock`. -/
def St.blk (s : St) : Nat := s.b1 + s.bc + s.bo

section
variable (m : Mem)

/-- newcolumntable.h:379-406 `setup(start, end)`.  The varints are read with at most ten
bytes, the size of a 64-bit number. -/
def setup (start e : Nat) : St :=
  let h1 := (m start).toNat
  let h2 := (m (start + 1)).toNat
  let b1 := h1 / 8 % 8
  let b2 := h1 % 8
  let bo := h2 % 8
  let bc := h2 / 8 % 8
  let u := decVMem m 10 (start + 2)
  let t := decVMem m 10 u.2
  let p2 := t.2 + (b1 + bc + bo) * u.1
  { b1, b2, bc, bo, v1 := -1, v2 := -1, nTerms := t.1, nUnique := u.1, count := 0, scanned := 0,
    stop := e, startpos1 := t.2, startpos2 := p2, startblock2 := 0, pos1 := t.2, pos2 := p2,
    ign := false, sv1 := 0, spos1 := 0, scount := 0, sscanned := 0, sstartblock2 := 0, sv2 := 0,
    spos2 := 0 }

/-- newcolumntable.h:154-162 `hasNext`. -/
def hasNext (s : St) : Bool := decide (s.pos1 < s.startpos2) || (!s.ign && decide (s.pos2 < s.stop))

/-- newcolumntable.h:171-176 (and 276-279 without the last two assignments): read the block
at `currentpos1`. -/
def readBlock (s : St) : St :=
  { s with v1 := rdN s.b1 m s.pos1, count := (rdN s.bc m (s.pos1 + s.b1)).toNat,
           pos1 := s.pos1 + s.blk }

/-- newcolumntable.h:164-185 `next`. -/
def next (s : St) : St :=
  let s := if s.ign || s.scanned == s.count then
      { readBlock m s with scanned := 0, startblock2 := s.pos2 } else s
  if s.ign then s
  else { s with v2 := rdN s.b2 m s.pos2, pos2 := s.pos2 + s.b2, scanned := s.scanned + 1 }

/-- newcolumntable.h:222-245 and 282-301: binary search for `c` in records of `B` bytes;
the final position and whether `c` was found there.  (For `B = 0` the C++ code divides by
zero; `setup` asserts that the widths are positive.) -/
def bsearch (rd : Nat → Int) (B : Nat) (c : Int) (s e : Nat) : Nat × Bool :=
  if _h : s < e ∧ 0 < B then
    let mid := s + (e - s) / B / 2 * B
    if rd mid < c then bsearch rd B c (mid + B) e
    else if rd mid > c then bsearch rd B c s mid
    else (mid, true)
  else (s, false)
  termination_by e - s
  decreasing_by
  · show e - (s + (e - s) / B / 2 * B + B) < e - s
    omega
  · have h1 := Nat.div_mul_le_self (e - s) B
    have h2 : (e - s) / B / 2 * B ≤ (e - s) / B * B / 2 := by
      rw [Nat.le_div_iff_mul_le (by omega)]
      have : (e - s) / B / 2 * 2 ≤ (e - s) / B := Nat.div_mul_le_self _ _
      calc (e - s) / B / 2 * B * 2 = (e - s) / B / 2 * 2 * B := by rw [Nat.mul_right_comm]
        _ ≤ _ := Nat.mul_le_mul_right _ this
    show s + (e - s) / B / 2 * B - s < e - s
    omega

/-- newcolumntable.h:235-241 and 253-259: continue at the block at `p`. -/
def atBlock (s : St) (p : Nat) : St :=
  let idx := (rdN s.bo m (p + s.b1 + s.bc)).toNat
  { s with pos1 := p, count := 0, pos2 := s.startpos2 + idx * s.b2,
           startblock2 := s.startpos2 + idx * s.b2 }

/-- newcolumntable.h:220-265: the part of `moveto` for a larger first value; the new state
and whether the group of `c1` was found. -/
def movetoFirst (c1 : Int) (s : St) : St × Bool :=
  let b := bsearch (rdN s.b1 m) s.blk c1 s.pos1 s.startpos2
  let s' :=
    if b.2 then atBlock m s b.1
    else if b.1 ≥ s.startpos2 then { s with pos1 := s.startpos2, pos2 := s.stop }
    else atBlock m s b.1
  ({ s' with scanned := 0, v2 := -1 }, b.2)

/-- newcolumntable.h:281-313: the search for `c2` among the remaining values of the current
group. -/
def secondTail (c2 : Int) (s : St) : St :=
  let e := s.startblock2 + s.count * s.b2
  let b := bsearch (rdN s.b2 m) s.b2 c2 s.pos2 e
  if b.2 then { s with scanned := (b.1 - s.startblock2) / s.b2, pos2 := b.1 }
  else
    let s := if b.1 ≥ e then { s with scanned := s.count, pos2 := e }
             else { s with pos2 := b.1, scanned := (b.1 - s.startblock2) / s.b2 }
    if s.pos2 = s.stop then { s with v2 := 0 } else s

/-- newcolumntable.h:272-313: the part of `moveto` for a larger second value of the current
group. -/
def movetoSecond (c2 : Int) (s : St) : St :=
  secondTail m c2 (if s.v2 = -1 then readBlock m s else s)

/-- newcolumntable.h:198-321 `moveto(c1, c2)`. -/
def moveto (c1 c2 : Int) (s : St) : St :=
  if hasNext s = false ∧ (c1 > s.v1 ∨ (s.ign = false ∧ c1 = s.v1 ∧ c2 > s.v2)) then s
  else
    let r :=
      if c1 > s.v1 then movetoFirst m c1 s
      else if s.ign then ({ s with pos1 := s.pos1 - s.blk }, c1 == s.v1)
      else (s, c1 == s.v1)
    let s := r.1
    if s.ign then s
    else if r.2 ∧ c2 > s.v2 then movetoSecond m c2 s
    else if s.v2 ≠ -1 then { s with scanned := s.scanned - 1, pos2 := s.pos2 - s.b2 }
    else s

/-- newcolumntable.h:426-429, 432-434 "make it fail". -/
def fail (s : St) : St := { s with pos1 := s.startpos2, pos2 := s.stop }

/-- newcolumntable.h:408-437 `setup(c1, start, end)`. -/
def setupC1 (c1 : Int) (start e : Nat) : St :=
  let s := setup m start e
  if hasNext s then
    let s := moveto m c1 0 (next m s)
    if hasNext s then
      let s := next m s
      if s.v1 = c1 then
        { s with stop := s.startblock2 + s.count * s.b2, pos2 := s.startblock2, startpos2 := s.pos1,
                 startpos1 := s.pos1 - s.blk, pos1 := s.pos1 - s.blk, nUnique := 1,
                 nTerms := s.count }
      else fail s
    else fail s
  else s

/-- newcolumntable.h:439-465 `setup(c1, c2, start, end)`. -/
def setupC12 (c1 c2 : Int) (start e : Nat) : St :=
  let s := setup m start e
  if hasNext s then
    let s := moveto m c1 c2 (next m s)
    if hasNext s then
      let s := next m s
      if s.v1 = c1 ∧ s.v2 = c2 then
        { s with pos1 := s.startpos2, nUnique := 1, nTerms := 1, stop := s.pos2,
                 pos2 := s.pos2 - s.b2, scanned := s.scanned - 1 }
      else fail s
    else fail s
  else s

/-- newcolumntable.h:326-339 `mark`. -/
def mark (s : St) : St :=
  { s with sv1 := s.v1, spos1 := s.pos1, scount := s.count, sscanned := s.scanned,
           sstartblock2 := s.startblock2, sv2 := s.v2, spos2 := s.pos2 }

/-- newcolumntable.h:341-354 `reset`. -/
def reset (s : St) : St :=
  { s with v1 := s.sv1, pos1 := s.spos1, count := s.scount, scanned := s.sscanned,
           startblock2 := s.sstartblock2, v2 := s.sv2, pos2 := s.spos2 }

/-- newcolumntable.h:363-369 `ignoreSecondColumn`. -/
def ignoreSecondColumn (s : St) : St :=
  if s.v1 ≠ -1 then { s with ign := true, scanned := s.count } else { s with ign := true }

/-- newcolumntable.h:130-136 `getCardinality`. -/
def getCardinality (s : St) : Nat := if s.ign then s.nUnique else s.nTerms

/-- newcolumntable.h:356-361 `getCount`. -/
def getCount (s : St) : Int := if s.ign then s.count else 1

/-- The iterator as seen by the client loop; values are the two columns. -/
def itr : Itr St Pair where
  hasNext s := (hasNext s, s)
  next := next m
  val s := (s.v1, s.v2)

/-- The iterator in distinct mode: value is the first column and `getCount`. -/
def itrD : Itr St Pair where
  hasNext s := (hasNext s, s)
  next := next m
  val s := (s.v1, getCount s)
end

end Column
end Trident
