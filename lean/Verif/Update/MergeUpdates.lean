import Verif.Update.Updater
import Verif.Update.Stats
/-!
# Merging updates

`KB::mergeUpdates` replaces the updates by at most one addition and one deletion: /repo/src/trident/kb/kb.cpp:652-831 and
/repo/src/trident/kb/querier.cpp:815-882.  What it sees of an update depends on the number of subjects stored with it
(`getNUniqueKeys`), so the updater is modelled again, with these numbers.

Not modelled: the dictionary of new terms (`createNewDict`, see C48), the statistics of the new updates.
-/
namespace Trident.Upd
open Load Diff3

/-! ## The number of subjects stored with an update -/

/-- What `getTermList(IDX_SPO)` sees of an update (diffindex3.cpp:1540-1548, difftermitr.cpp); `n` is the number stored with it
(diffindex3.cpp:92).  Only the order SPO is asked for here. -/
def Stored.terms (u : Stored) (n : Nat) : DiffTerms where
  isAdd := u.add
  nkeys _ := n
  list i := Obj.keys ((u.out (first i)).keys.map fun k => ((k.key : Int), (k.n : Int)))

/-- The subjects of the triples with the sizes of their tables, as `setKey` is called (diffindex3.cpp:1274). -/
def subjects (S : Sorts) (ts : List T3) : List Pair :=
  (tables S none [] [] (S.byKey (ts.map (permRow 0)))).map fun g => ((g.1 : Int), (g.2.1.length : Int))

/-- The directory `_diff`, and the number of subjects stored with each update. -/
structure Counted where
  disk : Disk
  ns : List Nat

/-- No updates. -/
def Counted.empty : Counted := ⟨Disk.empty, []⟩

/-- updater.cpp:304-362 as in `update`, with the number of subjects that `UpdateStats` finds (diffindex3.cpp:427-560,714).  `base` is
the list of subjects of the stored graph, `sortT` the sort of `CompositeTermItr`. -/
def updateC (kb : KB) (E : UEnv) (S : Sorts) (sortT : Sorter) (base : Obj) (rnd : Nat → Nat → Bool × Bool) (M : Mapping) (X : Counted)
    (add : Bool) (input : List T3) : Option Counted :=
  (pending kb E S M X.disk add input).map fun ts =>
    if ts.isEmpty then X
    else
      { disk := X.disk.write S rnd add ts
        ns := X.ns ++ [Stats.newKeys E.fuel add (getTermList sortT E.fuel 0 base (List.zipWith Stored.terms X.disk.ups X.ns)) (subjects S ts)] }

/-- A sequence of updates, as in `updates`. -/
def updatesC (kb : KB) (E : UEnv) (S : Sorts) (sortT : Sorter) (base : Obj) (rnd : Nat → Nat → Nat → Bool × Bool) (M : Nat → Disk → Mapping) :
    Nat → Counted → List (Bool × List T3) → Option Counted
  | _, X, [] => some X
  | n, X, u :: us =>
    match updateC kb E S sortT base (rnd n) (M n X.disk) X u.1 u.2 with
    | some X' => updatesC kb E S sortT base rnd M (n + 1) X' us
    | none => none

/-! ## What is left of all additions, and of all deletions -/

/-- The variable `finalItr` of `summaryDiff`: NULL, any scan, or a `CompositeScanItr` that can still take children. -/
inductive Final
  | null
  | plain (o : Obj3)
  | comp (cs : List Obj3)

/-- The iterator `finalItr` points to. -/
def Final.obj (E : UEnv) : Final → Option Obj3
  | .null => none
  | .plain o => some o
  | .comp cs => some (Obj3.composite E.sortS cs)

/-- querier.cpp:849-879, one update with its number of subjects.  (`hasNext` is called for a debug message only.) -/
def summaryStep (E : UEnv) (perm : Nat) (add : Bool) (f : Final) (d : Diff × Nat) : Final :=
  if d.2 > 0 then
    if d.1.add = add then
      match f with
      | .null => .plain (d.1.scan perm)
      | .plain o => .comp [o, d.1.scan perm]
      | .comp cs => .comp (cs ++ [d.1.scan perm])
    else
      match f.obj E with
      | none => .null
      | some o => .plain (Obj3.rm E.fuel o (d.1.scan perm))
  else f

/-- querier.cpp:844-882 `summaryDiff`; `none` is NULL. -/
def summaryDiff (E : UEnv) (ds : List (Diff × Nat)) (perm : Nat) (add : Bool) : Option Obj3 :=
  (ds.foldl (summaryStep E perm add) .null).obj E

/-- querier.cpp:815-842 `summaryAddDiff` (`add = true`) and `summaryRmDiff` (`add = false`). -/
def summary (E : UEnv) (ds : List (Diff × Nat)) (add : Bool) : Option Obj3 :=
  match summaryDiff E ds 0 add with
  | none => none
  | some p =>
    match summaryDiff E ds 0 (!add) with
    | none => some p
    | some m => some (Obj3.rm E.fuel p m)

/-! ## The new directory -/

/-- A directory of updates whose numbers need not be consecutive, in the order of the numbers. -/
structure NDir where
  glob : Nat → List UInt8
  ups : List (Nat × Stored)

def NDir.empty : NDir := ⟨fun _ => [], []⟩

/-- The directory as it is opened: the updates in the order of their numbers (kb.cpp:273-330). -/
def NDir.disk (N : NDir) : Disk := ⟨N.glob, N.ups.map (·.2)⟩

/-- A directory whose updates are numbered from 0. -/
def NDir.ofDisk (D : Disk) : NDir := ⟨D.glob, D.ups.mapIdx fun i u => (i, u)⟩

/-- The place of a new number. -/
def insertNum (n : Nat) (u : Stored) : List (Nat × Stored) → List (Nat × Stored)
  | [] => [(n, u)]
  | e :: l => if n < e.1 then (n, u) :: e :: l else e :: insertNum n u l

/-- `createDiffIndex` in the directory with number `n` (diffindex3.cpp:405-760), and the flag. -/
def NDir.write (S : Sorts) (rnd : Nat → Nat → Bool × Bool) (N : NDir) (n : Nat) (add : Bool) (ts : List T3) : NDir where
  glob := if ts.length < USEGLOBAL then fileOf (build S rnd N.glob ts) else N.glob
  ups := insertNum n { add := add
                       small := decide (ts.length < USEGLOBAL)
                       out := build S rnd N.glob ts } N.ups

/-- updater.cpp:371-385 `getPathForUpdate`: the first number that is not used; `l` are the used numbers, in order. -/
def nextFree : Nat → List Nat → Nat
  | n, [] => n
  | n, x :: l => if x = n then nextFree (n + 1) l else n

/-- updater.cpp:304-362 on a directory with any numbers. -/
def NDir.update (kb : KB) (E : UEnv) (S : Sorts) (rnd : Nat → Nat → Bool × Bool) (M : Mapping) (N : NDir) (add : Bool) (input : List T3) : Option NDir :=
  (pending kb E S M N.disk add input).map fun ts => if ts.isEmpty then N else N.write S rnd (nextFree 0 (N.ups.map (·.1))) add ts

/-- A sequence of updates of such a directory. -/
def NDir.updates (kb : KB) (E : UEnv) (S : Sorts) (rnd : Nat → Nat → Nat → Bool × Bool) (M : Nat → Disk → Mapping) : Nat → NDir → List (Bool × List T3) → Option NDir
  | _, N, [] => some N
  | n, N, u :: us =>
    match N.update kb E S (rnd n) (M n N.disk) u.1 u.2 with
    | some N' => NDir.updates kb E S rnd M (n + 1) N' us
    | none => none

/-- A row of a scan as a triple of ids (kb.cpp:658-663; the values are converted to `uint64_t`). -/
def rowT3 (r : Row3) : T3 := (r.1.toNat, r.2.1.toNat, r.2.2.toNat)

/-- kb.cpp:652-735 `createSingleUpdate`: collect the triples, keep of the deletions those that are in the stored graph (the loop is
that of `Updater::match`), and write them with number `n`.  `itr` NULL is dereferenced, and the scan of an empty graph is undefined: `none`. -/
def createSingle (kb : KB) (E : UEnv) (S : Sorts) (rnd : Nat → Nat → Bool × Bool) (add : Bool) (itr : Option Obj3) (n : Nat) (N : NDir) : Option NDir :=
  match itr with
  | none => none
  | some o =>
    let all := (drain o.I E.fuel o.s).map rowT3
    if all.isEmpty then some N
    else if add then some (N.write S rnd n true all)
    else
      match kb.getIteratorU E [] 0 (-1) (-1) (-1) with
      | .itr b =>
        let del := matched b.I false E.fuel b.s all
        if del.isEmpty then some N else some (N.write S rnd n false del)
      | _ => none

/-- What `mergeUpdates` does: nothing, because there is at most one update of each kind; undefined behaviour; an exception, after which the
directory is as before; or a new directory `_diff`. -/
inductive MergeRes
  | same
  | undef
  | failed
  | done (N : NDir)

/-- The directory `_diff` afterwards; `none` after undefined behaviour. -/
def MergeRes.after (D : Disk) : MergeRes → Option Disk
  | .same => some D
  | .failed => some D
  | .undef => none
  | .done N => some N.disk

/-- kb.cpp:771-810: the new directory `_newdiff`. -/
def newDiff (kb : KB) (E : UEnv) (S : Sorts) (rnd : Nat → Nat → Nat → Bool × Bool) (ds : List (Diff × Nat)) : Option NDir :=
  let adds := (ds.filter fun d => d.1.add).length
  let rms := (ds.filter fun d => !d.1.add).length
  match (if adds ≥ 1 then createSingle kb E S (rnd 0) true (summary E ds true) 0 NDir.empty else some NDir.empty) with
  | none => none
  | some N => if rms ≥ 1 then createSingle kb E S (rnd 1) false (summary E ds false) (if adds ≠ 0 then 1 else 0) N else some N

/-- kb.cpp:760-831 `mergeUpdates`, if there is no directory `_newdiff` before.  If no triple is left `_newdiff` is not created, so that
renaming it fails: the old directory is put back and an exception is thrown (822-828). -/
def mergeUpdates (kb : KB) (E : UEnv) (S : Sorts) (rnd : Nat → Nat → Nat → Bool × Bool) (M : Mapping) (X : Counted) : MergeRes :=
  let ds := (X.disk.opened M).zip X.ns
  if (ds.filter fun d => d.1.add).length ≤ 1 ∧ (ds.filter fun d => !d.1.add).length ≤ 1 then .same
  else
    match newDiff kb E S rnd ds with
    | none => .undef
    | some N => if N.ups.isEmpty then .failed else .done N

end Trident.Upd
