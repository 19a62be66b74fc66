import Verif.Update.Updater
/-!
# Interrupted updates

/repo/src/trident/kb/diffindex3.cpp:405-740 (`createDiffIndex`) and /repo/src/trident/kb/updater.cpp:336-357 write an update step by step.
Here are the states of the directory `_diff` if the process stops after one of the steps, as the next `KB` opens them
(kb.cpp:604-619, diffindex3.cpp:29-80).

Simplifications: a step is atomic (a tree file is written when its `Root` is destroyed; a tree that is not there is opened as an empty tree), and
what was written before stays (the process stops, not the machine).  The bytes of the tables may be written in part.

`j` tells which steps are finished when the process stops.  0: nothing is written.  1: the directory of the update exists, and some bytes of the tables
(diffindex3.cpp:427-540).  2: all tables are written.  3, 4, 5: the tree of the subjects, of the predicates, of the objects is written, too
(640-698).  6: the statistics (705-760) and the new terms (updater.cpp:351).  7: the flag ADD or DEL (updater.cpp:352-357).
-/
namespace Trident.Upd
open Load Diff3

/-- Whether the tree of the orders `i` and `i + 3` is written (diffindex3.cpp:640-698: subjects, predicates, objects). -/
def treeWritten (j : Nat) (i : Nat) : Bool := if i = 0 then decide (j ≥ 3) else if i = 2 then decide (j ≥ 4) else decide (j ≥ 5)

/-- The directory of the interrupted update as it is opened: without the flag ADD it is a deletion (kb.cpp:604-610), a tree that is missing is
empty.  (`small` is read from the files; without a tree no file of the update is read.) -/
def Stored.cut (u : Stored) (j : Nat) : Stored where
  add := u.add && decide (j ≥ 7)
  small := u.small
  out i := if treeWritten j i then u.out i else ⟨(u.out i).f1, (u.out i).f2, []⟩

/-- The directory `_diff` if the update that stores `ts` stops at `j`.  `junk` are the bytes that reached the shared files. -/
def Disk.crashed (S : Sorts) (rnd : Nat → Nat → Bool × Bool) (D : Disk) (add : Bool) (ts : List T3) (j : Nat) (junk : Nat → List UInt8) : Disk :=
  if j = 0 then D
  else
    { glob := if ts.length < USEGLOBAL then (if j ≥ 2 then Diff3.fileOf (build S rnd D.glob ts) else fun d => D.glob d ++ junk d) else D.glob
      ups := D.ups ++ [Stored.cut { add := add
                                    small := decide (ts.length < USEGLOBAL)
                                    out := build S rnd D.glob ts } j] }

/-- updater.cpp:304-362 as in `update`, stopped at `j`. -/
def updateStopped (kb : KB) (E : UEnv) (S : Sorts) (rnd : Nat → Nat → Bool × Bool) (M : Mapping) (D : Disk) (add : Bool) (input : List T3)
    (j : Nat) (junk : Nat → List UInt8) : Option Disk :=
  (pending kb E S M D add input).map fun ts => if ts.isEmpty then D else D.crashed S rnd add ts j junk

end Trident.Upd
