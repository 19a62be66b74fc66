import Verif.Load.Loader
/-!
# The flat tree

Models /repo/src/trident/tree/flatroot.cpp, /repo/include/trident/tree/flatroot.h and flattreeitr.h: a file with one block of fixed size for
every term, in the order of the terms, that replaces the tree when the database is opened for reading.

Simplifications: the iterator over the tree is the list of its entries (`Config.tree`, C31).  Files are lists of bytes.  A file is mapped
in pages of 4096 bytes; the bytes of the last page after the end of the file are 0.
-/
namespace Trident.Flat
open Load

/-- flatroot.cpp:5-18: labelled graphs, and unlabelled ones that are directed or undirected. -/
inductive Kind
  | labeled
  | directed
  | undirected
deriving DecidableEq, Repr

/-- flatroot.cpp:30-44: the permutations in a block, in order (SPO = 0, OPS = 1, POS = 2, SOP = 3, OSP = 4, PSO = 5). -/
def Kind.perms : Kind → List Nat
  | .labeled => [3, 4, 0, 1, 2, 5]
  | .directed => [3, 4]
  | .undirected => [3]

/-- flatroot.cpp:10-17: the size of a block: 83, 31 or 18. -/
def Kind.size (K : Kind) : Nat := 5 + 13 * K.perms.length

/-- The lowest `w` bytes of a number in memory (little endian). -/
def encLE (w n : Nat) : List UInt8 := (encBE w n).reverse

def decLE (bs : List UInt8) : Nat := decBE bs.reverse

/-- An `.idx` entry as it is used here (flatroot.cpp:119-145, 343-374): the term, and strategy, file and position of its table. -/
structure Entry where
  key : Nat
  strat : Nat
  file : Nat
  pos : Nat
deriving DecidableEq, Repr

/-- flatroot.cpp:113-120: reading an `.idx` file. -/
def readMarks : Nat → List UInt8 → List Mark
  | 0, _ => []
  | n + 1, bs => ⟨decBE ((bs.drop 5).take 5), decBE (bs.take 5), (bs.getD 10 0).toNat⟩ :: readMarks n (bs.drop 11)

def readIdx (bs : List UInt8) : List Mark := readMarks (decBE (bs.take 8)) (bs.drop 8)

/-- flatroot.cpp:51-84 `rewriteNewColumnStrategy` on the first two bytes of a table with column layout; `none` if it throws.
`NEWCOLUMN_ITR` is 3; the type of the layout has the bits 5 to 7. -/
def rewriteColumn (b0 b1 : UInt8) : Option Nat :=
  let first := b0.toNat / 8 % 8
  let rem := b1.toNat / 8 % 8 + b1.toNat % 8
  if first < 1 ∨ 5 < first ∨ 16 < rem ∨ rem < 2 then none
  else if first < 3 then some (32 + (if first = 2 then 16 else 0) + (rem - 2))
  else if first < 5 then some (64 + (if first = 4 then 16 else 0) + (rem - 2))
  else some (96 + (rem - 2))

/-- The directory of a permutation: for every number the data file and the `.idx` file. -/
abbrev Dir := List (List UInt8 × List UInt8)

/-- flatroot.cpp:119-145 (and 343-374): strategy and position of an entry of an `.idx` file.  For labelled graphs the position is the number of the
entry, which is what the tree stores; for unlabelled graphs it is the place of the table in the file. -/
def entryOf (K : Kind) (data : List UInt8) (file idx : Nat) (m : Mark) : Option Entry :=
  if K = .labeled then some ⟨m.key, m.strat, file, idx⟩
  else if m.strat / 32 % 8 = 3 then (rewriteColumn (data.getD m.pos 0) (data.getD (m.pos + 1) 0)).map fun s => ⟨m.key, s, file, m.pos⟩
  else some ⟨m.key, m.strat, file, m.pos⟩

/-- flatroot.cpp:101-120, 331-345: the entries of a directory, file by file.  The directory has two files for each number; more than 32768 names
make it throw. -/
def entries (K : Kind) (d : Dir) : Option (List Entry) :=
  if 32768 < 2 * d.length then none
  else ((d.zipIdx.flatMap fun x => (readIdx x.1.2).zipIdx.map fun y => (x.1.1, x.2, y.2, y.1)).mapM fun q => entryOf K q.1 q.2.1 q.2.2.1 q.2.2.2)

/-- flatroot.cpp:454-479 and the like: the 13 bytes of a permutation.  If there is no table only the five bytes of the number are set; `junk` is
what was in the buffer. -/
def slot (junk : List UInt8) (n strat file pos : Nat) : List UInt8 :=
  if 0 < n then encLE 5 n ++ [UInt8.ofNat strat] ++ encLE 2 file ++ encLE 5 pos else List.replicate 5 0 ++ junk

/-- A tree entry: the term and for every permutation the coordinates. -/
abbrev Item := Nat × (Nat → Option TreeEl)

/-- flatroot.cpp:158-193, 255-285: `getNElements` if there is a table. -/
def count (cs : Nat → Option TreeEl) (p : Nat) : Nat := (cs p).elim 0 (·.n)

/-- flatroot.cpp:434-507, 509-714 `write`: the block of a term, in which only SOP has strategy, file and position. -/
def block (K : Kind) (junk : Nat → Nat → List UInt8) (key : Nat) (cs : Nat → Option TreeEl) (sop : Entry) : List UInt8 :=
  encLE 5 key ++ K.perms.flatMap fun p => if p = 3 then slot (junk key p) (count cs 3) sop.strat sop.file sop.pos else slot (junk key p) (count cs p) 0 0 0

/-- flatroot.cpp:420-432 `writeOnlyKey`. -/
def blank (K : Kind) (key : Nat) : List UInt8 := encLE 5 key ++ List.replicate (13 * K.perms.length) 0

/-- flatroot.cpp:209-212, 286-288: blocks for the terms from `a` to `b - 1`. -/
def blanks (K : Kind) (a b : Nat) : List UInt8 := (List.range (b - a)).flatMap fun i => blank K (a + i)

/-- flatroot.cpp:149-236: the tree is read up to the term `key` of an entry.  `next` is `keyToAdd + 1`.  The result is `none` if it throws, else
the bytes written, the coordinates of `key`, and the rest. -/
def walk (K : Kind) (junk : Nat → Nat → List UInt8) (key : Nat) : List Item → Nat → Option (List UInt8 × (Nat → Option TreeEl) × List Item × Nat)
  | [], _ => none
  | (k, cs) :: items, next =>
    if key < k then none
    else if K = .labeled ∧ ∀ p ∈ K.perms, count cs p = 0 then none
    else if k < next then none
    else if k < key then
      (walk K junk key items (k + 1)).map fun r => (blanks K next k ++ block K junk k cs ⟨k, 0, 0, 0⟩ ++ r.1, r.2)
    else some (blanks K next k, cs, items, k + 1)

/-- flatroot.cpp:105-245: the entries of SOP. -/
def firstLoop (K : Kind) (junk : Nat → Nat → List UInt8) : List Entry → List Item → Nat → Option (List UInt8 × List Item × Nat)
  | [], items, next => some ([], items, next)
  | e :: es, items, next =>
    (walk K junk e.key items next).bind fun r =>
      (firstLoop K junk es r.2.2.1 r.2.2.2).map fun q => (r.1 ++ block K junk e.key r.2.1 e ++ q.1, q.2)

/-- flatroot.cpp:246-300: the rest of the tree. -/
def lastLoop (K : Kind) (junk : Nat → Nat → List UInt8) : List Item → Nat → Option (List UInt8)
  | [], _ => some []
  | (k, cs) :: items, next =>
    if (cs 3).isSome then none
    else if K ≠ .labeled ∧ cs 4 = none then none
    else (lastLoop K junk items (max next k + 1)).map fun r => blanks K next k ++ block K junk k (fun p => if p = 3 then none else cs p) ⟨k, 0, 0, 0⟩ ++ r

/-- flatroot.cpp:87-303 `writeFirstPerm`: nothing is written if the directory is empty (then the file does not exist, and mapping it fails). -/
def writeFirst (K : Kind) (junk : Nat → Nat → List UInt8) (sop : Dir) (items : List Item) : Option (List UInt8) :=
  if sop = [] then none
  else (entries K sop).bind fun es => (firstLoop K junk es items 0).bind fun r => (lastLoop K junk r.2.1 r.2.2).map fun q => r.1 ++ q

/-- Writing into the mapped file; `none` if it is outside. -/
def overwrite (out : List UInt8) (a : Nat) (bs : List UInt8) : Option (List UInt8) :=
  if a + bs.length ≤ out.length then some (out.take a ++ bs ++ out.drop (a + bs.length)) else none

/-- flatroot.cpp:376-389: one entry of another permutation. -/
def patch (K : Kind) (offset : Nat) (out : List UInt8) (e : Entry) : Option (List UInt8) :=
  overwrite out (e.key * K.size + offset) ([UInt8.ofNat e.strat] ++ encLE 2 e.file ++ encLE 5 e.pos)

/-- flatroot.cpp:305-389 `writeOtherPerm`. -/
def writeOther (K : Kind) (offset : Nat) (d : Dir) (out : List UInt8) : Option (List UInt8) :=
  (entries K d).bind fun es => es.foldlM (patch K offset) out

/-- flatroot.cpp:391-416: the offset of strategy, file and position of the permutation number `i` of a block: 10, 23, 36, 49, 62, 75. -/
def offsetOf (i : Nat) : Nat := 5 + 13 * i + 5

/-- flatroot.cpp:391-416 `loadFlatTree`: the bytes of the file. -/
def loadFlat (K : Kind) (junk : Nat → Nat → List UInt8) (dirs : Nat → Dir) (items : List Item) : Option (List UInt8) :=
  (writeFirst K junk (dirs 3) items).bind fun out =>
    (K.perms.zipIdx.drop 1).foldlM (fun out x => writeOther K (offsetOf x.2) (dirs x.1) out) out

/-! ## Reading -/

/-- The mapped memory. -/
def pages (out : List UInt8) : List UInt8 := out ++ List.replicate ((4096 - out.length % 4096) % 4096) 0

/-- `n` bytes from the place `a` on; `none` if they are not mapped. -/
def rd (m : List UInt8) (a n : Nat) : Option (List UInt8) := if a + n ≤ m.length then some ((m.drop a).take n) else none

/-- What `TermCoordinates` has for a permutation. -/
structure Coo where
  n : Nat
  strat : Nat
  file : Nat
  pos : Nat
deriving DecidableEq, Repr

/-- flatroot.cpp:20-28 `__set`: the inner `none` is that nothing is set.  Eight bytes are read for numbers of five bytes. -/
def readSlot (m : List UInt8) (a : Nat) : Option (Option Coo) :=
  (rd m a 8).bind fun bs =>
    let n := decLE (bs.take 5)
    if 0 < n then
      (rd m (a + 6) 2).bind fun f => (rd m (a + 8) 8).bind fun ps => (rd m (a + 5) 1).map fun s => some ⟨n, (s.getD 0 0).toNat, decLE f, decLE (ps.take 5)⟩
    else some none

/-- flatroot.cpp:30-44 `get`, and flattreeitr.h:25-37: the coordinates in the block at `a`; `none` if memory is read that is not mapped. -/
def readBlock (K : Kind) (m : List UInt8) (a : Nat) : Option (List (Nat × Option Coo)) :=
  K.perms.zipIdx.mapM fun x => (readSlot m (a + (5 + 13 * x.2))).map fun c => (x.1, c)

/-- flatroot.cpp:30-44 `FlatRoot::get` (it returns `true` always): permutation to coordinates. -/
def get (K : Kind) (out : List UInt8) (key : Nat) : Option (Nat → Option Coo) :=
  (readBlock K (pages out) (key * K.size)).map fun l p => (l.lookup p).join

/-- flattreeitr.h: the loop over the iterator; `fuel` bounds the rounds. -/
def iterate (K : Kind) (out : List UInt8) : (fuel start idx : Nat) → Option (List (Nat × (Nat → Option Coo)))
  | 0, _, _ => some []
  | fuel + 1, start, idx =>
    if start < out.length then
      (readBlock K (pages out) start).bind fun l => (iterate K out fuel (start + K.size) (idx + 1)).map fun r => (idx, fun p => (l.lookup p).join) :: r
    else some []

/-- kb.cpp:166-170: the graph as a reader sees it if the flat tree is there (`Config.open'` otherwise).  Only the lookup of a term is different; the
querier looks up terms that are not negative only (querier.cpp:918-1060).  Where `get` is undefined this is `none`: properties have to say that `get`
is defined. -/
def openFlat (c : Config) (g : List T3) (m : Mem) (M : Nat → Maps) (out : List UInt8) : KB :=
  { c.open' g m M with
    coords := fun k => if 0 ≤ k then (get .labeled out k.toNat).map fun f i => (f i).map fun t => coordOf m (M i) t.file t.pos t.strat else none }

/-- The directory with the files of a permutation (tableshandler.cpp:232-271): data file and `.idx` file for each number. -/
def dirOf (fs : List DataFile) : Dir := fs.map fun f => (f.bytes, storeFileIndex none f.marks)

/-- The directory of a permutation after a load: it is empty if no table was written. -/
def dirsOf (c : Config) (g : List T3) (i : Nat) : Dir := if (c.ins g i).tree = [] then [] else dirOf (c.ins g i).store.files

end Trident.Flat
