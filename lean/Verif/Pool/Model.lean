import Verif.Bytes
/-!
# The string pool

Models `/repo/src/trident/tree/stringbuffer.cpp`, as one thread sees it: a block handed to the compression thread keeps its bytes
(`Pool/Threads.lean` models the two threads, LZ4 is taken to be lossless), and the cache of blocks is transparent.
`B` is `SB_BLOCK_SIZE` (consts.h:93, 65536).
-/
namespace Trident.SPool

/-! ## Writing -/

/-- stringbuffer.h:48-99, the fields of the writer.  `done` are the full blocks, `cur` the first `writingCurrentBufferSize` bytes of
`currentBuffer`, `total` is `uncompressedSize`. -/
structure Pool where
  done : List (List UInt8)
  cur : List UInt8
  total : Nat
  posBase : Nat
  sizeBase : Nat
  entries : Nat
  matched : Nat
  deriving DecidableEq

/-- stringbuffer.cpp:38-92, a new pool. -/
def Pool.empty : Pool := ⟨[], [], 0, 0, 0, 0, 0⟩

/-- stringbuffer.cpp:327-347 `compressLastBlock`. -/
def Pool.compressLast (p : Pool) : Pool := { p with done := p.done ++ [p.cur], cur := [], sizeBase := 0, entries := 0 }

/-- stringbuffer.cpp:246-276 `writeVInt`.  `n` has at most four bytes (`supportBuffer`). -/
def Pool.writeVInt (B : Nat) (p : Pool) (n : Nat) : Pool :=
  let rem := B - p.cur.length
  if rem < 4 then
    if rem < (encV n).length then
      let p := { p with cur := p.cur ++ (encV n).take rem, total := p.total + rem }
      let p := p.compressLast
      { p with cur := p.cur ++ (encV n).drop rem, total := p.total + ((encV n).length - rem) }
    else { p with cur := p.cur ++ encV n, total := p.total + (encV n).length }
  else { p with cur := p.cur ++ encV n, total := p.total + (encV n).length }

/-- kognac `Utils::commonPrefix`: the length of the longest common prefix. -/
def commonPrefix : List UInt8 → List UInt8 → Nat
  | a :: as, b :: bs => if a = b then commonPrefix as bs + 1 else 0
  | _, _ => 0

/-- stringbuffer.cpp:233-244 `calculatePrefixWithBaseEntry`. -/
def Pool.prefixSize (p : Pool) (orig s : List UInt8) : Nat :=
  if 0 < s.length ∧ p.entries < 1024 then
    let c := commonPrefix ((orig.drop p.posBase).take p.sizeBase) s
    if c > 4 ∧ c ≥ p.matched then c else 0
  else 0

/-- stringbuffer.cpp:284-303, size and flag; also the part of the string that remains to be written. -/
def Pool.header (B : Nat) (p : Pool) (s : List UInt8) : Pool × List UInt8 :=
  let q := p.writeVInt B s.length
  let q := if B - q.cur.length = 0 then q.compressLast else q
  let k := q.prefixSize p.cur s
  if k = 0 then
    ({ q with cur := q.cur ++ [0], posBase := q.cur.length + 1, sizeBase := s.length, matched := 0, entries := 0 }, s)
  else
    let q' := ({ q with cur := q.cur ++ [1] }.writeVInt B q.posBase).writeVInt B k
    ({ q' with entries := q'.entries + 1, matched := k }, s.drop k)

/-- stringbuffer.cpp:305-320, the characters. -/
def Pool.body (B : Nat) (p : Pool) (t : List UInt8) : Pool :=
  let rem := B - p.cur.length
  if rem ≥ t.length then { p with cur := p.cur ++ t, total := p.total + (t.length + 1) }
  else
    let p := { p with cur := p.cur ++ t.take rem, total := p.total + rem }
    let p := p.compressLast
    { p with cur := t.drop rem, total := p.total + (t.length - rem + 1) }

/-- stringbuffer.cpp:278-321 `append`. -/
def Pool.append (B : Nat) (p : Pool) (s : List UInt8) : Pool :=
  let r := p.header B s
  r.1.body B r.2

/-! ## Reading -/

/-- What a reader can reach: the number of blocks and what `getBlock` returns (`none` outside of the vector `blocks`, or if a block
cannot be decompressed). -/
structure View where
  n : Nat
  block : Nat → Option Mem

/-- The memory of a block; the bytes that were not written are arbitrary. -/
def blockMem (junk : Mem) (l : List UInt8) : Mem := fun j => if j < l.length then l.getD j 0 else junk j

/-- The blocks of a pool that is being written. -/
def Pool.view (junk : Mem) (p : Pool) : View where
  n := p.done.length + 1
  block i := ((p.done ++ [p.cur])[i]?).map (blockMem junk)

/-- The variables `blockId`, `block` and `offset` (`none` is the null pointer). -/
structure Cursor where
  id : Nat
  blk : Option Mem
  off : Nat

/-- stringbuffer.cpp:409-420, `supportBuffer`: the rest of a block and the start of the next one. -/
def support (B : Nat) (junk : Mem) (off : Nat) (blk : Mem) (nextBlock : Option Mem) : Mem := fun j =>
  if j < B - off then blk (off + j) else nextBlock.elim (junk j) fun nb => nb (j - (B - off))

/-- stringbuffer.cpp:403-437 `getVInt`; `none` if a pointer is dereferenced that is null or out of range. -/
def getVInt (B : Nat) (junk : Mem) (V : View) (c : Cursor) : Option (Nat × Cursor) := do
  let blk ← c.blk
  if B - c.off < 4 then
    let nextBlock ← (if c.id + 1 < V.n then (V.block (c.id + 1)).map some else some none)
    let r := decVMem (support B junk c.off blk nextBlock) 5 0
    if c.off + r.2 ≥ B then some (r.1, ⟨c.id + 1, nextBlock, c.off + r.2 - B⟩)
    else some (r.1, ⟨c.id, blk, c.off + r.2⟩)
  else
    let r := decVMem blk 5 c.off
    some (r.1, ⟨c.id, blk, r.2⟩)

/-- stringbuffer.h:104-113 `getFlag`. -/
def getFlag (B : Nat) (V : View) (c : Cursor) : Option (UInt8 × Cursor) :=
  if c.off < B then do
    let blk ← c.blk
    some (blk c.off, ⟨c.id, blk, c.off + 1⟩)
  else do
    let blk ← V.block (c.id + 1)
    some (blk 0, ⟨c.id + 1, blk, 1⟩)

/-- `memcpy` from a block; `none` if it goes over the end of the block. -/
def copy (B : Nat) (m : Mem) (start n : Nat) : Option (List UInt8) :=
  if start + n ≤ B then some ((List.range n).map fun j => m (start + j)) else none

/-- stringbuffer.cpp:467-482, the rest of the string. -/
def getTail (B : Nat) (V : View) (c : Cursor) (n : Nat) : Option (List UInt8) := do
  let c ← (if c.off = B then (V.block (c.id + 1)).map (fun b => Cursor.mk (c.id + 1) (some b) 0) else some c)
  let blk ← c.blk
  if c.off + n > B then
    let a ← copy B blk c.off (B - c.off)
    let blk ← V.block (c.id + 1)
    let b ← copy B blk 0 (n - (B - c.off))
    some (a ++ b)
  else copy B blk c.off n

/-- stringbuffer.cpp:439-483 `get`.  (`idxBlock * SB_BLOCK_SIZE` is computed with 32 bits: beyond 2^31 the code relies on wrap-around.) -/
def View.get (B : Nat) (junk : Mem) (V : View) (pos : Nat) : Option (List UInt8) := do
  let blk ← V.block (pos / B)
  let (size, c) ← getVInt B junk V ⟨pos / B, blk, pos - pos / B * B⟩
  let (flag, c) ← getFlag B V c
  if flag = 1 then
    let (posPrefix, c) ← getVInt B junk V c
    let (sizePrefix, c) ← getVInt B junk V c
    if pos / B ≠ c.id then
      let base ← V.block (pos / B)
      let pre ← copy B base posPrefix sizePrefix
      let blk ← V.block c.id
      let rest ← getTail B V ⟨c.id, blk, c.off⟩ (size - sizePrefix)
      some (pre ++ rest)
    else
      let blk ← c.blk
      let pre ← copy B blk posPrefix sizePrefix
      let rest ← getTail B V c (size - sizePrefix)
      some (pre ++ rest)
  else getTail B V c size

/-! ## Comparing -/

/-- kognac `Utils::prefixEquals`: 0 if the first is a prefix of the second, otherwise the difference of the first bytes that differ,
or 1 if the second ends. -/
def prefixEquals : List UInt8 → List UInt8 → Int
  | [], _ => 0
  | _ :: _, [] => 1
  | a :: as, b :: bs => if a = b then prefixEquals as bs else (a.toNat : Int) - b.toNat

/-- stringbuffer.cpp:558-562, 565-569, 574-578: one loop over `n` bytes of the block from `a` on; a difference, or how far the argument
(from position `j`) was read. -/
def cmpLoop (m : Mem) (s : List UInt8) : Nat → Nat → Nat → Int ⊕ Nat
  | 0, _, j => .inr j
  | n + 1, a, j =>
    if h : j < s.length then
      if m a ≠ s[j] then .inl ((m a).toNat - s[j].toNat) else cmpLoop m s n (a + 1) (j + 1)
    else .inr j

/-- stringbuffer.cpp:556-580. -/
def cmpTail (B : Nat) (V : View) (c : Cursor) (size : Nat) (s : List UInt8) : Option Int :=
  if c.off + size ≤ B then
    if size = 0 then some ((size : Int) - s.length)
    else do
      let blk ← c.blk
      match cmpLoop blk s size c.off 0 with
      | .inl d => some d
      | .inr _ => some ((size : Int) - s.length)
  else do
    let blk ← c.blk
    match cmpLoop blk s (B - c.off) c.off 0 with
    | .inl d => some d
    | .inr j =>
      let blk ← V.block (c.id + 1)
      match cmpLoop blk s (size - (B - c.off)) 0 j with
      | .inl d => some d
      | .inr _ => some (((size - (B - c.off) : Nat) : Int) - s.length + j)

/-- stringbuffer.cpp:523-581 `cmp`. -/
def View.cmp (B : Nat) (junk : Mem) (V : View) (pos : Nat) (s : List UInt8) : Option Int := do
  let blk ← V.block (pos / B)
  let (size, c) ← getVInt B junk V ⟨pos / B, blk, pos % B⟩
  let (flag, c) ← getFlag B V c
  if flag = 1 then
    let (posBase, c) ← getVInt B junk V c
    let (sizeBase, c) ← getVInt B junk V c
    let base ← (if pos / B ≠ c.id then V.block (pos / B) else c.blk)
    let pre ← copy B base posBase sizeBase
    if prefixEquals pre s ≠ 0 then some (prefixEquals pre s)
    else cmpTail B V c (size - sizeBase) (s.drop sizeBase)
  else cmpTail B V c size s

/-! ## Closing and reopening -/

/-- The files `sb` (the compressed blocks, each with its bytes) and `sb.idx`. -/
structure Files where
  total : Nat
  blocks : List (List UInt8)
  deriving DecidableEq

/-- stringbuffer.cpp:583-614, the destructor. -/
def Pool.close (B : Nat) (p : Pool) : Files :=
  ⟨p.total, if p.total % B > 0 then p.done ++ [p.cur] else p.done⟩

/-- stringbuffer.cpp:69-81 and 368-401: a pool opened for reading.  A block is decompressed into `B` bytes, the last one into
`uncompressedSize % B` bytes; if it does not fit, `LZ4_decompress_safe` fails and the block has no defined content. -/
def Files.view (B : Nat) (junk : Mem) (f : Files) : View where
  n := f.blocks.length
  block i := match f.blocks[i]? with
    | none => none
    | some b => if b.length ≤ (if i = f.blocks.length - 1 then f.total % B else B) then some (blockMem junk b) else none

end Trident.SPool
