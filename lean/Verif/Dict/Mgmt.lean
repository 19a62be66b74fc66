import Verif.Dict.Gud
import Verif.Props.Tree
import Verif.Props.Pool
/-!
# The dictionary

dictmgmt.cpp, updater.cpp:85-146, kb.cpp:330-343 and 833-882, loader.cpp:1225-1325: a dictionary for the terms that were loaded, one for
the new terms of each large update, and the two maps for the terms of small updates.

The tree from texts to ids is taken as a map from texts to ids (`ids`).  The tree from ids to positions is the tree of Tree/Tree.lean, as
long as its leaves stay in memory while it is written, and the texts are in a string pool (Pool/Model.lean) that was closed and opened
again.
-/
namespace Trident.Dict
open BTree SPool

/-- The block size of the pools (`SB_BLOCK_SIZE`, 65536), half of the number of keys in a node (`MAX_EL_PER_NODE / 2`, 1024), the number
of new terms from which on an update has its own dictionary (10000), and what is in uninitialised memory. -/
structure Par where
  B : Nat
  m : Nat
  large : Nat
  junk : Mem

/-- dictmgmt.h:88-96: a dictionary.  `ids` is the tree `dict`, `inv` are the entries put into the tree `invdict`, `sb` are the strings
appended to the pool. -/
structure Dic where
  ids : List (Text × Nat)
  inv : List (Int × Nat)
  sb : List Text
deriving DecidableEq

def Dic.empty : Dic := ⟨[], [], []⟩

/-- dictmgmt.cpp:256-263 (`appendPair`): no test whether the text is there. -/
def Dic.append (P : Par) (d : Dic) (t : Text) (id : Nat) : Dic :=
  ⟨d.ids ++ [(t, id)], d.inv ++ [((id : Int), posOf P.B d.sb)], d.sb ++ [t]⟩

/-- dictmgmt.cpp:265-275 (`putPair`) and updater.cpp:124-135: the text is appended to the pool by `insertIfNotExists`. -/
def Dic.put (P : Par) (d : Dic) (t : Text) (id : Nat) : Dic := if (d.ids.lookup t).isSome then d else d.append P t id

/-- The tree from ids to positions. -/
def Dic.tree (P : Par) (d : Dic) : Root Nat := putAll (2 * P.m) d.inv

/-- dictmgmt.cpp:205-206: the text at the position that is stored for the id, `some none` if there is none.  The result is `none` if the
pool cannot read it. -/
def Dic.text (P : Par) (d : Dic) (id : Nat) : Option (Option Text) :=
  ((d.tree P).get (id : Int)).elim (some none) fun pos => ((((added P.B d.sb).close P.B).view P.B P.junk).get P.B P.junk pos).map some

/-- dictmgmt.cpp:315-320: the first key of the tree from ids to positions. -/
def Dic.first (P : Par) (d : Dic) : Option Nat :=
  let r := d.tree P
  if (r.tree.itr.hasNext r.itr).1 then some (r.tree.itr.val (r.tree.itr.next (r.tree.itr.hasNext r.itr).2)).1.toNat else none

/-- The opened dictionaries with their first ids (`dictionaries` and `beginrange`), the maps, and `nextID` of the database. -/
structure Mgr where
  dicts : List (Nat × Dic)
  gud : Gud
  next : Nat

/-- dictmgmt.cpp:201-204: the dictionary in which an id is searched. -/
def pickDict : List (Nat × Dic) → Nat → Dic
  | [], _ => Dic.empty
  | [d], _ => d.2
  | d :: e :: l, key => if e.1 ≤ key then pickDict (e :: l) key else d.2

/-- dictmgmt.cpp:152-218 (`getText`; the three versions differ in how they return the text).  `none` is undefined. -/
def Mgr.getText (P : Par) (M : Mgr) (key : Nat) : Option (Option Text) :=
  ((pickDict M.dicts key).text P key).bind fun r => r.elim (some (M.gud.texts.lookup key)) fun t => some (some t)

/-- dictmgmt.cpp:226-245 (`getNumber`). -/
def Mgr.getNumber (M : Mgr) (t : Text) : Option Nat :=
  (M.dicts.findSome? fun d => d.2.ids.lookup t).elim (M.gud.ids.lookup t) some

/-- What is on disk: the dictionary of the load with `nextID` in the file `kbstats`, the dictionaries in `_diff/N/dict` in the order of
`N` with `nextid` in their `stats`, and the file `_diff/gud`. -/
structure Disk where
  base : Dic
  baseNext : Nat
  upds : List (Dic × Nat)
  gud : Option (List UInt8)
deriving DecidableEq

/-- dictmgmt.cpp:311-323 (`addUpdates`): throws if one of the dictionaries is empty. -/
def starts (P : Par) : List (Dic × Nat) → Option (List (Nat × Dic))
  | [] => some []
  | u :: us => (u.1.first P).bind fun lo => (starts P us).map fun l => (lo, u.1) :: l

/-- dictmgmt.cpp:46-72, kb.cpp:330-343: opening.  `none` if it throws or never returns. -/
def openMgr (P : Par) (D : Disk) : Option Mgr :=
  (D.gud.elim (some {}) readGud).bind fun g => (starts P D.upds).map fun l =>
    ⟨(0, D.base) :: l, g, max (D.upds.foldl (fun n u => max n u.2) D.baseNext) (g.largest + 1)⟩

/-- loader.cpp:1250-1283: the terms of the dictionary files are appended with the ids from `key` on. -/
def appendFrom (P : Par) : Nat → List Text → Dic → Dic
  | _, [], d => d
  | key, t :: ts, d => appendFrom P (key + 1) ts (d.append P t key)

/-- loader.cpp:1287-1317: the common terms. -/
def putFrom (P : Par) : Nat → List Text → Dic → Dic
  | _, [], d => d
  | key, t :: ts, d => putFrom P (key + 1) ts (d.put P t key)

/-- loader.cpp:1225-1320 (one dictionary partition, both directions) and kb.cpp:497: the common terms have the ids `0, 1, …`, the others
follow; `nextID` is one more than the largest id. -/
def loadDict (P : Par) (common others : List Text) : Disk :=
  let d := putFrom P 0 common (appendFrom P common.length others Dic.empty)
  ⟨d, d.ids.foldl (fun n e => max n e.2) 0 + 1, [], none⟩

/-- The orders in which the hash maps of the new terms and of the terms of small updates are iterated. -/
structure Hash where
  tmp : List (Text × Nat) → List (Text × Nat)
  gud : List (Nat × Text) → List (Nat × Text)

structure Hash.Ok (h : Hash) : Prop where
  tmp : ∀ l, (h.tmp l).Perm l
  gud : ∀ l, (h.gud l).Perm l

/-- updater.cpp:85-146 (`writeDict`), and dictmgmt.cpp:325-341 when the database is closed after it. -/
def writeDict (P : Par) (h : Hash) (D : Disk) (M : Mgr) (tmp : List (Text × Nat)) : Disk :=
  if tmp = [] then D
  else if tmp.length < P.large then
    { D with gud := some (((h.tmp tmp).foldl (fun g e => g.put e.2 e.1) M.gud).write h.gud) }
  else
    { D with upds := D.upds ++ [((h.tmp tmp).foldl (fun d e => d.put P e.1 e.2) Dic.empty, (h.tmp tmp).foldl (fun n e => max n e.2) 0 + 1)] }

/-- updater.cpp:318-369 for an addition, as far as the dictionary is concerned; the comparison with the stored triples is in
Update/Updater.lean.  `stored` tells whether there are triples that were not there before (if not, nothing is written). -/
def addUpdate (P : Par) (srt : (TT → Text) → List TT → List TT) (h : Hash) (stored : Bool) (D : Disk) (M : Mgr) (l : List TT) : Disk :=
  if stored then writeDict P h D M (compress srt true M.getNumber M.next l).2.tmp else D

/-- Running a loop over an iterator. -/
def drain {σ α : Type} (I : Itr σ α) : Nat → σ → List α
  | 0, _ => []
  | n + 1, s => if (I.hasNext s).1 then I.val (I.next (I.hasNext s).2) :: drain I n (I.next (I.hasNext s).2) else []

/-- kb.cpp:833-887 (`createNewDict`): the terms of a dictionary, in the order of their ids, are added to a new one.  `put` replaces the id
of a text that is there already; here it is added as if it were not, which is the same if the texts are different. -/
def copyDict (P : Par) (d : Dic) (acc : Option Dic) : Option Dic :=
  (drain (d.tree P).tree.itr (d.inv.length + 1) (d.tree P).itr).foldl (fun acc e => acc.bind fun a =>
    ((e.2.bind fun pos => (((added P.B d.sb).close P.B).view P.B P.junk).get P.B P.junk pos).map fun t => a.append P t e.1.toNat)) acc

/-- kb.cpp:807-826: the dictionaries of the updates are merged into one; the directory with the file `gud` is renamed, so this file is not
found any more. -/
def mergeDicts (P : Par) (D : Disk) : Option Disk :=
  if D.upds = [] then some { D with gud := none }
  else (D.upds.foldl (fun acc u => copyDict P u.1 acc) (some Dic.empty)).map fun d =>
    { D with upds := [(d, d.ids.foldl (fun n e => max n e.2) 0 + 1)], gud := none }

end Trident.Dict
