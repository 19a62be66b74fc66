import Verif.Load.Loader
import Verif.Load.InserterProofs
/-!
# Sorting the input of the loader

`PermSorter` keeps triples as records of 15 bytes in one array (23 with a count), sorts the array by bytes, writes the triples to files and
rewrites the array for the next permutation.

Simplifications: the array is a list of records (all offsets in the code are multiples of the size of a record).  Readers and writers of
files (kognac `MultiDiskLZ4Reader/Writer`) are lists of triples.  The threads of `sortChunks2_load` and `dumpPermutation` have a part of the
files and of the array each, so they are run one after the other.
-/
namespace Trident.PermSorter
open Trident.Load

abbrev Rec := List UInt8

/-- permsorter.cpp:61-67, 276-279 `writeTermInBuffer`: the record of a triple (`encBE 5` keeps the low 40 bits). -/
def recOf (t : T3) : Rec := encBE 5 t.1 ++ encBE 5 t.2.1 ++ encBE 5 t.2.2

/-- permsorter.cpp:474-481 with `includeCount`: the third field has 8 bytes (69-78 `write8TermInBuffer`), the count 5. -/
def recCountOf (t : T3 × Nat) : Rec := encBE 5 t.1.1 ++ encBE 5 t.1.2.1 ++ encBE 8 t.1.2.2 ++ encBE 5 t.2

/-- permsorter.cpp:80-88 `readTermFromBuffer` at an offset. -/
def field (off len : Nat) (r : Rec) : Nat := decBE ((r.drop off).take len)

/-- permsorter.cpp:124-131: the triple of a record. -/
def tripleOf (r : Rec) : T3 := (field 0 5 r, field 5 5 r, field 10 5 r)

/-- permsorter.cpp:111-118. -/
def tripleCountOf (r : Rec) : T3 × Nat := ((field 0 5 r, field 5 5 r, field 10 8 r), field 18 5 r)

/-- permsorter.cpp:34-42: `std::array<unsigned char, n>::operator<`. -/
def recLess (a b : Rec) : Bool := decide (a < b)

/-! ## Rewriting a record for another permutation -/

/-- Five assignments `r[dst] = src[0]; …; r[dst+4] = src[4]`. -/
def put5 (r : Rec) (dst : Nat) (src : List UInt8) : Rec :=
  ((((r.set dst (src.getD 0 0)).set (dst + 1) (src.getD 1 0)).set (dst + 2) (src.getD 2 0)).set (dst + 3) (src.getD 3 0)).set (dst + 4) (src.getD 4 0)

/-- `r[off], …, r[off+4]`. -/
def get5 (r : Rec) (off : Nat) : List UInt8 := [r.getD off 0, r.getD (off + 1) 0, r.getD (off + 2) 0, r.getD (off + 3) 0, r.getD (off + 4) 0]

/-- permsorter.cpp:593-612: switching second and third term. -/
def swap23 (r : Rec) : Rec :=
  let tmp := get5 r 5
  let r := put5 r 5 (get5 r 10)
  put5 r 10 tmp

/-- permsorter.cpp:620-639: switching first and second term. -/
def swap12 (r : Rec) : Rec :=
  let tmp := get5 r 0
  let r := put5 r 0 (get5 r 5)
  put5 r 5 tmp

/-- permsorter.cpp:647-666: switching first and third term. -/
def swap13 (r : Rec) : Rec :=
  let tmp := get5 r 0
  let r := put5 r 0 (get5 r 10)
  put5 r 10 tmp

/-- permsorter.cpp:674-698: rotating left. -/
def rotL (r : Rec) : Rec :=
  let tmp := get5 r 0
  let r := put5 r 0 (get5 r 5)
  let r := put5 r 5 (get5 r 10)
  put5 r 10 tmp

/-- permsorter.cpp:701-724: rotating right. -/
def rotR (r : Rec) : Rec :=
  let tmp := get5 r 0
  let r := put5 r 0 (get5 r 10)
  let r := put5 r 10 (get5 r 5)
  put5 r 5 tmp

/-- permsorter.cpp:579-726 `sortChunks2_permute` on one record (SPO = 0, OPS = 1, POS = 2, SOP = 3, OSP = 4, PSO = 5). -/
def permute (cur next : Nat) (r : Rec) : Rec :=
  if (cur, next) ∈ [(0, 3), (3, 0), (4, 1), (1, 4), (2, 5), (5, 2)] then swap23 r
  else if (cur, next) ∈ [(3, 4), (4, 3), (1, 2), (2, 1), (0, 5), (5, 0)] then swap12 r
  else if (cur, next) ∈ [(0, 1), (1, 0), (4, 5), (5, 4), (2, 3), (3, 2)] then swap13 r
  else if (cur, next) ∈ [(0, 2), (1, 5), (4, 0), (5, 3), (2, 4), (3, 1)] then rotL r
  else rotR r

/-! ## Filling the array -/

/-- permsorter.cpp:534-569: `slots` more records are read into a part, from the open streams in turn.  `opened` has the streams that are not at
their end, `idx` is `idxCurPair`; reading at the end of a stream does not happen. -/
def fillPart : (slots idx : Nat) → (opened : List Nat) → (streams : List (List T3)) → List T3 × List Nat × List (List T3)
  | 0, _, opened, streams => ([], opened, streams)
  | k + 1, idx, opened, streams =>
    match opened[idx]? with
    | none => ([], opened, streams)
    | some i =>
      match streams.getD i [] with
      | [] => ([], opened, streams)
      | x :: xs =>
        let streams' := streams.set i xs
        let opened' := if xs = [] then opened.eraseIdx idx else opened
        let idx' := if xs = [] then (if idx = opened'.length then 0 else idx) else (idx + 1) % opened.length
        let r := fillPart k idx' opened' streams'
        (x :: r.1, r.2)

/-- permsorter.cpp:508-569 `sortChunks2_fill`: the parts (each with its limit) are filled one after the other while there are open streams. -/
def fillParts : List (Nat × List T3) → List Nat → List (List T3) → List (Nat × List T3) × List (List T3)
  | [], _, streams => ([], streams)
  | (limit, part) :: ps, opened, streams =>
    let r := fillPart (limit - part.length) 0 opened streams
    let q := fillParts ps r.2.1 r.2.2
    ((limit, part ++ r.1) :: q.1, q.2)

/-- permsorter.cpp:572-587: the rest of a part is set to bytes 1. -/
def filler (size : Nat) : Rec := List.replicate size 1

/-- The settings of `sortChunks2`: number of threads, and number of records of the array (742-750). -/
structure Cfg where
  n : Nat
  nelements : Nat

/-- permsorter.cpp:747-750: how many records a part has. -/
def Cfg.limit (c : Cfg) (i : Nat) : Nat :=
  let maxInserts := max 1 (c.nelements / c.n)
  if i = c.n - 1 then maxInserts + (c.nelements - maxInserts * c.n) else maxInserts

/-- permsorter.cpp:829-866: the array of a round and the rest of the streams: every thread reads its stream into its part (458-493), then
`sortChunks2_fill`. -/
def loadArray (c : Cfg) (streams : List (List T3)) : List (Nat × List T3) × List (List T3) :=
  let parts := streams.zipIdx.map fun x => (c.limit x.2, x.1.take (c.limit x.2))
  let rest := streams.zipIdx.map fun x => x.1.drop (c.limit x.2)
  fillParts parts ((List.range rest.length).filter fun i => rest.getD i [] ≠ []) rest

/-- permsorter.cpp:572-587: the bytes of the array. -/
def arrayOf (parts : List (Nat × List T3)) : List Rec :=
  parts.flatMap fun p => p.2.map recOf ++ List.replicate (p.1 - p.2.length) (filler 15)

/-- permsorter.cpp:180-197 (`dumpPermutation`): the ranges written by the threads. -/
def cuts (n realSize : Nat) : Nat → Nat → List (Nat × Nat)
  | 0, _ => []
  | k + 1, cur =>
    let next := if k = 0 then realSize else min (cur + max 1 (realSize / n)) realSize
    (cur, next) :: cuts n realSize k next

/-- permsorter.cpp:146-225: the files written for the first `realSize` records. -/
def dump (n realSize : Nat) (array : List Rec) : List (List T3) :=
  (cuts n realSize n 0).map fun x => ((array.drop x.1).take (x.2 - x.1)).map tripleOf

/-- permsorter.cpp:891-925: the other permutations, each from the array of the one before. -/
def dumpRest (srt : List Rec → List Rec) (n loaded : Nat) : Nat → List Nat → List Rec → List (List (List T3))
  | _, [], _ => []
  | cur, p :: ps, array =>
    let array := srt ((array.take loaded).map (permute cur p)) ++ array.drop loaded
    dump n loaded array :: dumpRest srt n loaded p ps array

/-- permsorter.cpp:813-926: one round: the files of each permutation, and the rest of the streams. -/
def round (srt : List Rec → List Rec) (c : Cfg) (p0 : Nat) (ps : List Nat) (streams : List (List T3)) : List (List (List T3)) × List (List T3) :=
  let l := loadArray c streams
  let loaded := (l.1.map fun p => p.2.length).sum
  let array := srt (arrayOf l.1)
  (dump c.n loaded array :: dumpRest srt c.n loaded p0 ps array, l.2)

/-- permsorter.cpp:811-929: rounds while a stream has data. `fuel` bounds the rounds (the number of triples is enough). -/
def rounds (srt : List Rec → List Rec) (c : Cfg) (p0 : Nat) (ps : List Nat) : Nat → List (List T3) → List (List (List (List T3)))
  | 0, _ => []
  | fuel + 1, streams =>
    if streams.all (·.isEmpty) then []
    else
      let r := round srt c p0 ps streams
      r.1 :: rounds srt c p0 ps fuel r.2

/-! ## Which files are read by which thread -/

/-- permsorter.cpp:757-762: files to parts, in turn. -/
def assign {α : Type} (n : Nat) (files : List (List α)) : List (List α) :=
  (List.range n).map fun i => (files.zipIdx.filter fun x => x.2 % n = i).flatMap (·.1)

/-- permsorter.cpp:763-783, 835-836: the stream of thread `i`, which is part `i / io` of reader `i % io`; the parts were added to the readers
in order, `n / io` to each.  `none` is a part that the reader does not have. -/
def streamIndex (n io i : Nat) : Option Nat := if i / io < n / io then some (i % io * (n / io) + i / io) else none

/-- The streams of the threads. -/
def streamsOf {α : Type} (n io : Nat) (files : List (List α)) : Option (List (List α)) :=
  (List.range n).mapM fun i => (streamIndex n io i).map fun k => (assign n files).getD k []

/-- permsorter.cpp:734-930 `sortChunks2`: `files` are the input files, `nthreads` and `ionthreads` the numbers of threads, `maxElements` what fits
into memory, `estimated` the expected number of triples.  The result has for every round and permutation the files written. -/
def sortChunks2 (srt : List Rec → List Rec) (nthreads ionthreads maxElements estimated : Nat) (p0 : Nat) (ps : List Nat) (files : List (List T3)) :
    Option (List (List (List (List T3)))) :=
  let n := max 1 (min files.length nthreads)
  let io := if n < nthreads then 1 else ionthreads
  let c : Cfg := ⟨n, max n (min maxElements estimated)⟩
  (streamsOf n io files).map fun s => rounds srt c p0 ps (s.map List.length).sum s

/-- What is known of the sort (`ParallelTasks::sort_int`, see C47 and the comparison 34-42). -/
structure SortsRecs (srt : List Rec → List Rec) : Prop where
  perm : ∀ l, (srt l).Perm l
  sorted : ∀ l, (srt l).Pairwise fun a b => recLess b a = false

end Trident.PermSorter
