import Verif.Update.Query
/-!
# Applying an update

/repo/src/trident/kb/updater.cpp:304-470, from the parsed triples to the new differential index, and opening the updates again
(/repo/src/trident/kb/kb.cpp:271-330,604-619).  The conversion of texts to ids is not part of this file.
-/
namespace Trident.Upd
open Load Diff3

/-- updater.cpp:454-474 `cmp`, lexicographic. -/
def cmp (k : Row3) (t : T3) : Int :=
  if k.1 < (t.1 : Int) then -1
  else if k.1 = (t.1 : Int) then
    if k.2.1 < (t.2.1 : Int) then -1
    else if k.2.1 = (t.2.1 : Int) then
      if k.2.2 < (t.2.2 : Int) then -1 else if k.2.2 = (t.2.2 : Int) then 0 else 1
    else 1
  else 1

variable {σ : Type} (I : Itr σ Row3)

/-- `if (kbitr->hasNext()) kbitr->next(); else kbitr = NULL` (updater.cpp:395-400,406-411). -/
def advance (s : σ) : Option σ :=
  let h := I.hasNext s
  if h.1 then some (I.next h.2) else none

/-- updater.cpp:405-412: move `kbitr` to the first triple that is not below `t`.  `none`: `kbitr` is NULL.  (`fuel` bounds the loop; any
number larger than the number of triples will do.) -/
def skipTo (t : T3) : Nat → Option σ → Option σ
  | _, none => none
  | 0, some s => some s
  | n + 1, some s => if cmp (I.val s) t < 0 then skipTo t n (advance I s) else some s

/-- updater.cpp:403-450, the rest of `match`: the loop over the input, then the copy of what remains.  `add`: the update is an addition. -/
def matchLoop (add : Bool) (fuel : Nat) : Option σ → List T3 → List T3
  | _, [] => []
  | k, t :: ts =>
    match skipTo I t fuel k with
    | none => if add then t :: ts else []
    | some s =>
      if add then
        if cmp (I.val s) t ≠ 0 then t :: matchLoop add fuel (some s) ts else matchLoop add fuel (some s) ts
      else if cmp (I.val s) t = 0 then
        match advance I s with
        | some s' => t :: matchLoop add fuel (some s') ts
        | none => [t]
      else matchLoop add fuel (some s) ts

/-- updater.cpp:387-452 `match`, on the scan returned by `getIterator(IDX_SPO, -1, -1, -1)`. -/
def matched (add : Bool) (fuel : Nat) (s : σ) (input : List T3) : List T3 := matchLoop I add fuel (advance I s) input

/-- updater.cpp:307-309: `std::unique` on the sorted triples. -/
def unique : List T3 → List T3
  | x :: y :: l => if x = y then unique (y :: l) else x :: unique (y :: l)
  | l => l

/-- What `createDiffIndex` leaves in the directory of an update: the flag ADD or DEL, the three trees, and whether the tables are in the files shared
by all updates. -/
structure Stored where
  add : Bool
  small : Bool
  out : Nat → Out

/-- The directory `_diff`: the six shared files, and the updates in the order of their numbers. -/
structure Disk where
  glob : Nat → List UInt8
  ups : List Stored

/-- No updates. -/
def Disk.empty : Disk := ⟨fun _ => [], []⟩

/-- updater.cpp:336-356: `getPathForUpdate` takes the next number, `createDiffIndex` writes the tables, the flag is written. -/
def Disk.write (S : Sorts) (rnd : Nat → Nat → Bool × Bool) (D : Disk) (add : Bool) (ts : List T3) : Disk where
  glob := if ts.length < USEGLOBAL then fileOf (build S rnd D.glob ts) else D.glob
  ups := D.ups ++ [{ add := add
                     small := decide (ts.length < USEGLOBAL)
                     out := build S rnd D.glob ts }]

/-- Where the files are mapped: the shared files, and the own files of a large update. -/
structure Mapping where
  mem : Mem
  gbase : Nat → Nat
  obase : Nat → Nat → Nat

/-- The files are mapped. -/
def Mapping.Of (M : Mapping) (D : Disk) : Prop :=
  (∀ d : Order, Placed M.mem (M.gbase d.idx) (D.glob d.idx)) ∧
  ∀ i u, D.ups[i]? = some u → u.small = false → ∀ d : Order, Placed M.mem (M.obase i d.idx) (fileOf u.out d.idx)

/-- kb.cpp:271-330 and diffindex3.cpp:75-80: the updates as the querier has them. -/
def Disk.opened (D : Disk) (M : Mapping) : List Diff :=
  D.ups.mapIdx fun i u => openDiff u.add M.mem (if u.small then M.gbase else M.obase i) u.out

/-- updater.cpp:304-334: sort the triples, remove repetitions, keep those that are new (or those that exist).  `none`: the scan is undefined. -/
def pending (kb : KB) (E : UEnv) (S : Sorts) (M : Mapping) (D : Disk) (add : Bool) (input : List T3) : Option (List T3) :=
  match kb.getIteratorU E (D.opened M) 0 (-1) (-1) (-1) with
  | .itr o => some (matched o.I add E.fuel o.s (unique (S.triples input)))
  | _ => none

/-- updater.cpp:304-362: find the triples to store, and store them unless there are none. -/
def update (kb : KB) (E : UEnv) (S : Sorts) (rnd : Nat → Nat → Bool × Bool) (M : Mapping) (D : Disk) (add : Bool) (input : List T3) : Option Disk :=
  (pending kb E S M D add input).map fun ts => if ts.isEmpty then D else D.write S rnd add ts

/-- A sequence of updates; the files may be mapped elsewhere each time. -/
def updates (kb : KB) (E : UEnv) (S : Sorts) (rnd : Nat → Nat → Nat → Bool × Bool) (M : Nat → Disk → Mapping) : Nat → Disk → List (Bool × List T3) → Option Disk
  | _, D, [] => some D
  | n, D, u :: us =>
    match update kb E S (rnd n) (M n D) D u.1 u.2 with
    | some D' => updates kb E S rnd M (n + 1) D' us
    | none => none

end Trident.Upd
