/-!
# The memory manager and the file manager

Models `/repo/include/trident/utils/memorymgr.h` and the bookkeeping of `/repo/include/trident/files/filemanager.h` (which files are open, which
sessions hold them).  `N` is `MAX_N_BLOCKS_IN_CACHE`.  A result `none` stands for a loop that does not end or for a null pointer that is followed.
-/
namespace Trident.Files

/-! ## MemoryManager -/

/-- memorymgr.h:32-39 `MemoryBlock`; `owner` is the position in the parent's array (`idx`), here the number of the file. -/
structure Blk where
  owner : Nat
  bytes : Nat
  lock : Int
  deriving DecidableEq

/-- memorymgr.h:43-50. -/
structure Mm where
  slots : List (Option Blk)
  start : Nat
  end_ : Nat
  bytes : Int
  left : Nat
  deriving DecidableEq

/-- memorymgr.h:72-81, the constructor. -/
def Mm.empty (N : Nat) : Mm := ⟨List.replicate N none, 0, 0, 0, N⟩

/-- The block in a slot, `none` if it is NULL. -/
def Mm.get (m : Mm) (i : Nat) : Option Blk := (m.slots[i]?).join

/-- memorymgr.h:60-65, the search for a block that is not locked; the loop comes back to where it began after `N` rounds. -/
def scanFree (m : Mm) (N : Nat) : Nat → Nat → Option Nat
  | 0, _ => none
  | fuel + 1, s =>
    match m.get s with
    | some b => if b.lock > 0 then scanFree m N fuel (if s + 1 = N then 0 else s + 1) else some s
    | none => scanFree m N fuel (if s + 1 = N then 0 else s + 1)

/-- memorymgr.h:89-98 `removeBlock` (the destructor of the element finds its slot empty and changes nothing). -/
def Mm.removeBlock (m : Mm) (i : Nat) : Option Mm :=
  (m.get i).map fun b => { m with slots := m.slots.set i none, bytes := m.bytes - b.bytes, left := m.left + 1 }

/-- memorymgr.h:53-68 `removeOneBlock`; also the slot that was emptied. -/
def Mm.removeOne (N : Nat) (m : Mm) : Option (Mm × List Nat) :=
  if m.left < N then do
    let s := if m.start = N then 0 else m.start
    let i ← scanFree m N N s
    let m' ← m.removeBlock i
    some ({ m' with start := i + 1 }, [i])
  else some (m, [])

/-- memorymgr.h:122-124. -/
def Mm.evict (N : Nat) (max : Int) : Nat → Mm → Option (Mm × List Nat)
  | 0, _ => none
  | fuel + 1, m =>
    if m.bytes ≥ max ∨ m.left = 0 then do
      let (m', l) ← m.removeOne N
      let (m'', l') ← Mm.evict N max fuel m'
      some (m'', l ++ l')
    else some (m, [])

/-- memorymgr.h:131-133, the search for an empty slot. -/
def scanEmpty (m : Mm) (N : Nat) : Nat → Nat → Option Nat
  | 0, _ => none
  | fuel + 1, e => if m.get e = none then some e else scanEmpty m N fuel ((e + 1) % N)

/-- memorymgr.h:120-145 `add`: the new state, the slot, and the slots that were emptied before. -/
def Mm.add (N : Nat) (max : Int) (m : Mm) (bytes owner : Nat) : Option (Mm × Nat × List Nat) := do
  let (m, l) ← if m.bytes + bytes > max then m.evict N max (N + 2) else some (m, [])
  let e ← scanEmpty m N N (if m.end_ = N then 0 else m.end_)
  some ({ m with slots := m.slots.set e (some ⟨owner, bytes, 0⟩), bytes := m.bytes + bytes, left := m.left - 1, end_ := e + 1 }, e, l)

/-- memorymgr.h:83-87 `update`. -/
def Mm.update (m : Mm) (i bytes : Nat) : Option Mm :=
  (m.get i).map fun b => { m with slots := m.slots.set i (some { b with bytes := bytes }), bytes := m.bytes - b.bytes + bytes }

/-- memorymgr.h:100-107 `removeBlockWithoutDeallocation`. -/
def Mm.drop (m : Mm) (i : Nat) : Mm :=
  match m.get i with
  | some b => { m with slots := m.slots.set i none, bytes := m.bytes - b.bytes, left := m.left + 1 }
  | none => m

/-- memorymgr.h:109-111 `addLock`, 117-119 `releaseLock`. -/
def Mm.relock (m : Mm) (i : Nat) (d : Int) : Option Mm :=
  (m.get i).map fun b => { m with slots := m.slots.set i (some { b with lock := b.lock + d }) }

/-- The calls. -/
inductive MOp
  | add (bytes owner : Nat)
  | update (i bytes : Nat)
  | remove (i : Nat)
  | drop (i : Nat)
  | lock (i : Nat)
  | unlock (i : Nat)

def Mm.run (N : Nat) (max : Int) (m : Mm) : MOp → Option Mm
  | .add b o => (m.add N max b o).map (·.1)
  | .update i b => m.update i b
  | .remove i => m.removeBlock i
  | .drop i => some (m.drop i)
  | .lock i => m.relock i 1
  | .unlock i => m.relock i (-1)

def Mm.runs (N : Nat) (max : Int) : Mm → List MOp → Option Mm
  | m, [] => some m
  | m, o :: os => (m.run N max o).bind fun m' => Mm.runs N max m' os

/-! ## FileManager -/

/-- filemanager.h:43-63.  `mm` is `none` if `bytesTracker` is NULL (a graph opened for reading).  `opened f` is the `memoryTrackerId` of an open
file.  Sessions: -3 free, -2 without a block, otherwise what `getBuffer` returned (-1 without a tracker). -/
structure Fm where
  mm : Option Mm
  opened : Nat → Option Int
  tracker : List Nat
  nOpened : Int
  sessions : List Int
  last : Nat

/-- filemanager.h:130-147, the constructor. -/
def Fm.empty (S : Nat) (mm : Option Mm) : Fm := ⟨mm, fun _ => none, [], 0, List.replicate S (-3), 0⟩

def setOpen (o : Nat → Option Int) (f : Nat) (v : Option Int) : Nat → Option Int := fun g => if g = f then v else o g

/-- filedescriptor.cpp:207-216 `isUsed`. -/
def Fm.isUsed (F : Fm) (id : Int) : Bool :=
  match F.mm with
  | none => true
  | some m => match m.get id.toNat with
    | some b => decide (b.lock > 0)
    | none => true

/-- filemanager.h:81-111, the loop that looks for a file to close: the rest of the list, the counter and the file. -/
def trimLoop (F : Fm) : Nat → List Nat → Nat → Option Nat → Int → Option (List Nat × Int × Option Nat)
  | 0, _, _, _, _ => none
  | fuel + 1, tr, idx, first, n =>
    match F.opened idx with
    | some id =>
      if F.isUsed id then
        match tr ++ [idx] with
        | [] => none
        | x :: tr' => if some x = (first.or (some idx)) then some (tr', n, none) else trimLoop F fuel tr' x (first.or (some idx)) n
      else some (tr, n, some idx)
    | none =>
      match tr with
      | [] => none
      | x :: tr' => if some x = first then some (tr', n - 1, none) else trimLoop F fuel tr' x first (n - 1)

/-- filemanager.h:73-116, making room. -/
def Fm.trim (F : Fm) (maxFiles : Int) : Option Fm :=
  if F.nOpened ≥ maxFiles then
    match F.tracker with
    | [] => none
    | x :: tr => (trimLoop F (2 * tr.length + 4) tr x none F.nOpened).map fun (tr', n, r) =>
      match r with
      | some f => { F with
          mm := F.mm.map fun m => m.drop ((F.opened f).getD 0).toNat
          opened := setOpen F.opened f none
          tracker := tr'
          nOpened := n - 1 }
      | none => { F with tracker := tr', nOpened := n }
  else some F

/-- The files in the given slots. -/
def owners (m : Mm) (l : List Nat) : List Nat := l.filterMap fun i => (m.get i).map (·.owner)

/-- filemanager.h:69-126 `load_file` with filedescriptor.cpp:39-64 `mapFile`: a new descriptor registers its size with the memory manager,
which closes other files. -/
def Fm.load (N : Nat) (max maxFiles : Int) (F : Fm) (f size : Nat) : Option Fm :=
  if (F.opened f).isSome then some F
  else do
    let F ← F.trim maxFiles
    match F.mm with
    | none => some { F with opened := setOpen F.opened f (some (-1)), tracker := F.tracker ++ [f], nOpened := F.nOpened + 1 }
    | some m =>
      let (m', e, l) ← m.add N max size f
      let closed := owners m l
      some { F with
        mm := some m'
        opened := setOpen (fun g => if g ∈ closed then none else F.opened g) f (some e)
        tracker := F.tracker ++ [f]
        nOpened := F.nOpened + 1 }

/-- filemanager.h:158-182 `getBuffer` with a session. -/
def Fm.getBuffer (N : Nat) (max maxFiles : Int) (F : Fm) (f size s : Nat) : Option Fm := do
  let F ← F.load N max maxFiles f size
  let id ← F.opened f
  let old ← F.sessions[s]?
  if old ≠ id then
    match F.mm with
    | none => some { F with sessions := F.sessions.set s id }
    | some m =>
      let m ← if old ≥ 0 then m.relock old.toNat (-1) else some m
      let m ← if id ≥ 0 then m.relock id.toNat 1 else some m
      some { F with mm := some m, sessions := F.sessions.set s id }
  else some F

/-- filemanager.h:184-199 `newSession`: the loop with its counter. -/
def sessionLoop (ss : List Int) (S : Nat) : Nat → Nat → Nat → Option Nat
  | 0, _, _ => none
  | fuel + 1, last, cnt =>
    if ss[last]? = some (-3) then some last
    else if cnt + 1 > S then none
    else sessionLoop ss S fuel ((last + 1) % S) (cnt + 1)

/-- filemanager.h:184-199 `newSession`; `none` is the exception. -/
def Fm.newSession (S : Nat) (F : Fm) : Option (Fm × Nat) :=
  (sessionLoop F.sessions S (S + 2) F.last 0).map fun s => ({ F with sessions := F.sessions.set s (-2), last := (s + 1) % S }, s)

/-- filemanager.h:201-208 `closeSession`. -/
def Fm.closeSession (F : Fm) (s : Nat) : Option Fm := do
  let old ← F.sessions[s]?
  let mm ← match F.mm with
    | none => some none
    | some m => if old ≥ 0 then (m.relock old.toNat (-1)).map some else some (some m)
  some { F with mm := mm, sessions := F.sessions.set s (-3) }

/-- The calls.  A file can have another size each time it is opened. -/
inductive FOp
  | load (f size : Nat)
  | read (f size s : Nat)
  | newSession
  | closeSession (s : Nat)

def Fm.run (N S : Nat) (max maxFiles : Int) (F : Fm) : FOp → Option Fm
  | .load f size => F.load N max maxFiles f size
  | .read f size s => F.getBuffer N max maxFiles f size s
  | .newSession => (F.newSession S).map (·.1)
  | .closeSession s => F.closeSession s

def Fm.runs (N S : Nat) (max maxFiles : Int) : Fm → List FOp → Option Fm
  | F, [] => some F
  | F, o :: os => (F.run N S max maxFiles o).bind fun F' => Fm.runs N S max maxFiles F' os

end Trident.Files
