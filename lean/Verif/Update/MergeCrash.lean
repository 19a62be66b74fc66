import Verif.Update.MergeUpdates
/-!
# Interrupted merging of updates

/repo/src/trident/kb/kb.cpp:760-831 `mergeUpdates` writes the directory `_newdiff`, removes `_diff.old`, renames `_diff` to `_diff.old` and
`_newdiff` to `_diff`.  Here are the directories if the process stops in between, and merging with a directory `_newdiff` that was left.

Simplifications as for interrupted updates (`Crash`): a rename is atomic and what was done before stays.  Not modelled: an update that is
written to a number that exists already in `_newdiff`.
-/
namespace Trident.Upd
open Load Diff3

/-- The directories of a graph that contain updates; `none`: it does not exist. -/
structure Dirs where
  diff : Option NDir
  newdiff : Option NDir
  old : Option NDir

/-- The updates that are opened (kb.cpp:271-330): without a directory `_diff` there are none. -/
def Dirs.opened (F : Dirs) : Disk := F.diff.elim Disk.empty NDir.disk

/-- Where merging stops.  `writing N`: before `_diff` is renamed; `_newdiff` contains `N`, whatever that is, and `_diff.old` may be removed in
part (kb.cpp:788-816, `O` is what is left of it).  `renamed`: after the first rename (818).  `finished`: after the second (822). -/
inductive MergePoint
  | writing (N : Option NDir) (O : Option NDir)
  | renamed
  | finished

/-- The directories if merging, which writes `N`, stops at a point. -/
def Dirs.mergeStopped (F : Dirs) (N : NDir) : MergePoint → Dirs
  | .writing N' O => ⟨F.diff, N', O⟩
  | .renamed => ⟨none, some N, F.diff⟩
  | .finished => ⟨some N, none, F.diff⟩

/-- kb.cpp:771-810, the new directory, if `_newdiff` contains `N₀` already: directories are created if they do not exist (654-735, diffindex3.cpp:427-540),
so what is there stays.  `undef` also if a number of `N₀` would be written again. -/
def createSingleFrom (kb : KB) (E : UEnv) (S : Sorts) (rnd : Nat → Nat → Bool × Bool) (add : Bool) (itr : Option Obj3) (n : Nat) (N : NDir) : Option NDir :=
  match createSingle kb E S rnd add itr n N with
  | none => none
  | some N' => if N'.ups.length = N.ups.length then some N' else if n ∈ N.ups.map (·.1) then none else some N'

/-- kb.cpp:771-810 with a directory `_newdiff` that contains `N₀`. -/
def newDiffFrom (kb : KB) (E : UEnv) (S : Sorts) (rnd : Nat → Nat → Nat → Bool × Bool) (ds : List (Diff × Nat)) (N₀ : NDir) : Option NDir :=
  let adds := (ds.filter fun d => d.1.add).length
  let rms := (ds.filter fun d => !d.1.add).length
  match (if adds ≥ 1 then createSingleFrom kb E S (rnd 0) true (summary E ds true) 0 N₀ else some N₀) with
  | none => none
  | some N => if rms ≥ 1 then createSingleFrom kb E S (rnd 1) false (summary E ds false) (if adds ≠ 0 then 1 else 0) N else some N

/-- kb.cpp:760-831 with a directory `_newdiff` that contains `N₀`: renaming it succeeds. -/
def mergeUpdatesFrom (kb : KB) (E : UEnv) (S : Sorts) (rnd : Nat → Nat → Nat → Bool × Bool) (M : Mapping) (X : Counted) (N₀ : NDir) : MergeRes :=
  let ds := (X.disk.opened M).zip X.ns
  if (ds.filter fun d => d.1.add).length ≤ 1 ∧ (ds.filter fun d => !d.1.add).length ≤ 1 then .same
  else
    match newDiffFrom kb E S rnd ds N₀ with
    | none => .undef
    | some N => .done N

end Trident.Upd
