import Verif.Load.Store
/-!
# Jumping to a key in the list of tables

/repo/src/trident/iterators/termitr.cpp:105-155.
-/
namespace Trident.Load

/-- termitr.cpp:137-154: the binary search between the addresses `start` and `stop`; the address where it ends.  `Utils::decode_long` reads eight
bytes: the key, the layout byte and two bytes of the next record.  (After the last record the bytes are not in the file: whatever lies there.) -/
def TermIt.search (m : Mem) (k : Int) (start stop : Nat) : Nat :=
  if h : start < stop then
    let nels := (stop - start) / 11
    let middle := start + (nels / 2) * 11
    let x : Int := rdU m (middle + 5) 8
    if x < k then search m k (middle + 11) stop
    else if x > k then search m k start middle
    else middle
  else stop
termination_by stop - start
decreasing_by all_goals omega

/-- termitr.cpp:105-155 `gotoKey`.  (`doesFileHaveCoordinates` is always true, see `TermIt.hasNext`.) -/
def TermIt.gotoKey (m : Mem) (M : Maps) (k : Int) (s : TermIt) : TermIt :=
  let lastKey := rdU m (s.endbuffer - 6) 5
  if k > lastKey then
    if s.file + 1 < M.nfiles then
      let f := FileMarks.parse m (M.idx (s.file + 1)) (M.size (s.file + 1))
      gotoKey m M k { s with file := s.file + 1, mark := -1, buffer := f.begin', endbuffer := f.end }
    else { s with buffer := s.endbuffer, mark := s.mark + ((s.endbuffer - s.buffer) / 11 : Nat), key := lastKey }
  else
    let b := TermIt.search m k s.buffer s.endbuffer
    { s with mark := s.mark + ((b - s.buffer) / 11 : Nat), buffer := b }
termination_by M.nfiles - s.file

/-- One call of a client: read an entry, or jump to a key. -/
inductive TermIt.Op
  | read
  | jump (k : Int)

def TermIt.step (m : Mem) (M : Maps) (s : TermIt) : TermIt.Op → TermIt
  | .read => let h := TermIt.hasNext m M s; if h.1 then TermIt.next m h.2 else h.2
  | .jump k => TermIt.gotoKey m M k s

end Trident.Load
