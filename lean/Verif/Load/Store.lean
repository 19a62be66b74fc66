import Verif.Tables.Strat
/-!
# Table files and their marks (`TableStorage`, `FileMarks`, `TermItr`)

Models /repo/src/trident/binarytables/tableshandler.cpp, /repo/include/trident/binarytables/tableshandler.h
and /repo/src/trident/iterators/termitr.cpp:28-75.

A file of the store is the list of its bytes (`FileDescriptor`, `FileManager` are the subject of C44); an
`.idx` file is bytes too.  `appendPair` and `stopTableAppend` are the writers of C05-C07, run on the
complete list of pairs.
-/
namespace Trident.Load

/-- tableshandler.h:77-81 `WrittenMarks`. -/
structure Mark where
  key : Nat
  pos : Nat
  strat : Nat
deriving DecidableEq, Repr

/-- A file with tables, and the marks of the tables in it (`marksToStore[file]`). -/
structure DataFile where
  bytes : List UInt8 := []
  marks : List Mark := []
deriving DecidableEq, Repr

/-- The files of a permutation; `cur` is the file number `lastCreatedFile`, `done` the ones before. -/
structure Store where
  done : List DataFile := []
  cur : DataFile := {}
deriving DecidableEq, Repr

/-- All files, by number. -/
def Store.files (s : Store) : List DataFile := s.done ++ [s.cur]

/-- tableshandler.cpp:160-197 `startAppend`: new store, file number and mark.  `maxSize` is `getFileMaxSize`. -/
def Store.startAppend (maxSize : Nat) (key strat : Nat) (s : Store) : Store × Nat × Nat :=
  let s := if s.cur.bytes.length > maxSize then { done := s.done ++ [s.cur], cur := {} } else s
  let cur := { s.cur with marks := s.cur.marks ++ [⟨key, s.cur.bytes.length, strat⟩] }
  ({ s with cur := cur }, s.done.length, cur.marks.length - 1)

/-- tableshandler.cpp:203-230 `append`, `stopAppend`: the bytes of the table go to the end of the file. -/
def Store.write (bs : List UInt8) (s : Store) : Store :=
  { s with cur := { s.cur with bytes := s.cur.bytes ++ bs } }

/-! ## The `.idx` file -/

/-- tableshandler.cpp:263-269: a record, 11 bytes. -/
def Mark.enc (m : Mark) : List UInt8 := encBE 5 m.pos ++ encBE 5 m.key ++ [UInt8.ofNat m.strat]

/-- `Utils::encode_long` of a number of marks. -/
def encCount (n : Nat) : List UInt8 := encBE 8 n

/-- Big-endian number (kognac `decode_long`, `decode_longFixedBytes`; for numbers below `2^63`). -/
def decBE (bs : List UInt8) : Nat := bs.foldl (fun n b => n * 256 + b.toNat) 0

/-- tableshandler.cpp:241-271 `storeFileIndex` on the bytes of the file (`none`: it does not exist). -/
def storeFileIndex (old : Option (List UInt8)) (ms : List Mark) : List UInt8 :=
  match old with
  | some f => encCount (decBE (f.take 8) + ms.length) ++ f.drop 8 ++ ms.flatMap Mark.enc
  | none => encCount ms.length ++ ms.flatMap Mark.enc

/-- Unsigned big-endian number of `n` bytes in memory (`decode_longFixedBytes`). -/
def rdU (m : Mem) (a : Nat) : Nat → Nat
  | 0 => 0
  | n + 1 => rdU m a n * 256 + (m (a + n)).toNat

/-- tableshandler.h:46-52, tableshandler.cpp:36-57 `FileMarks`, after `parse` of an `.idx` file mapped at
address `idx`, of a file of `size` bytes. -/
structure FileMarks where
  begin' : Nat
  «end» : Nat
  sizeMarks : Nat
  size : Nat

/-- tableshandler.cpp:36-57 `parse`. -/
def FileMarks.parse (m : Mem) (idx size : Nat) : FileMarks :=
  let n := rdU m idx 8
  { begin' := idx + 8, «end» := idx + 8 + n * 11, sizeMarks := n, size := size }

/-- tableshandler.h:62-71 `getPos`. -/
def FileMarks.getPos (m : Mem) (f : FileMarks) (mark : Nat) : Nat × Nat :=
  let start := rdU m (f.begin' + 11 * mark) 5
  let stop := if mark + 1 = f.sizeMarks then f.size else rdU m (f.begin' + 11 * (mark + 1)) 5
  (start, stop)

/-- Where the files of a permutation are mapped: data files and `.idx` files by number. -/
structure Maps where
  data : Nat → Nat
  idx : Nat → Nat
  size : Nat → Nat
  nfiles : Nat

/-- tableshandler.cpp:132-158 `getTable`: begin and end address of a table. -/
def Maps.getTable (m : Mem) (M : Maps) (file mark : Nat) : Nat × Nat :=
  let p := (FileMarks.parse m (M.idx file) (M.size file)).getPos m mark
  let start := M.data file + p.1
  (start, start + (p.2 - p.1))

/-! ## `TermItr` -/

/-- termitr.h: the fields that matter.  `mark` is `currentMark`, which starts at -1. -/
structure TermIt where
  file : Nat
  mark : Int
  buffer : Nat
  endbuffer : Nat
  key : Nat

/-- termitr.cpp:28-43 `init`. -/
def TermIt.init (m : Mem) (M : Maps) : TermIt :=
  let f := FileMarks.parse m (M.idx 0) (M.size 0)
  ⟨0, -1, f.begin', f.end, 0⟩

/-- termitr.cpp:45-62 `hasNext`.  (`doesFileHaveCoordinates` is always true: it parses the file or throws.) -/
def TermIt.hasNext (m : Mem) (M : Maps) (s : TermIt) : Bool × TermIt :=
  if s.buffer = s.endbuffer then
    if s.file + 1 ≥ M.nfiles then (false, { s with file := s.file + 1, mark := -1 })
    else
      let f := FileMarks.parse m (M.idx (s.file + 1)) (M.size (s.file + 1))
      (true, { s with file := s.file + 1, mark := -1, buffer := f.begin', endbuffer := f.end })
  else (true, s)

/-- termitr.cpp:64-71 `next`. -/
def TermIt.next (m : Mem) (s : TermIt) : TermIt :=
  { s with key := rdU m (s.buffer + 5) 5, buffer := s.buffer + 11, mark := s.mark + 1 }

/-- What a client reads: `getKey`, `getCurrentFile`, `getCurrentMark` and `getCurrentStrat`
(termitr.cpp:73-75). -/
def TermIt.itr (m : Mem) (M : Maps) : Itr TermIt (Nat × Nat × Int × Nat) where
  hasNext := TermIt.hasNext m M
  next := TermIt.next m
  val s := (s.key, s.file, s.mark, (m (s.buffer - 1)).toNat)

end Trident.Load
