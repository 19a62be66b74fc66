import Verif.Iter.Term
/-!
# The number of keys an update adds to the graph, or removes from it

When an update is written, `UpdateStats` walks the list of keys of the graph as it is before the update, next to the keys of the
update.  The result is stored with the update (`stats`, offset 48) and is what `DiffIndex3::getNUniqueKeys` returns.

Models /repo/src/trident/kb/updatestats.cpp:26-41,68-84,168-180 and /repo/src/trident/kb/diffindex3.cpp:84-113,714,732,750.
Not modelled: the counts of first terms (`addFirst1`, `addFirst2`).
-/
namespace Trident
namespace Stats

/-- updatestats.h:36-53: `existingkeys`, `currentkey` and `nkeys`. -/
structure St (σ : Type) where
  ex : σ
  cur : Int
  n : Nat

variable {σ : Type} (I : Itr σ Pair)

/-- updatestats.cpp:34-40: the constructor; `~0u` is 2^32 - 1. -/
def start (s : σ) : St σ :=
  let h := I.hasNext s
  if h.1 then ⟨I.next h.2, (I.val (I.next h.2)).1, 0⟩ else ⟨h.2, 2 ^ 32 - 1, 0⟩

/-- updatestats.cpp:75-78 and 170-173: `while (currentkey < key && existingkeys->hasNext())`, bounded by `fuel` (the theorems hold
for all bounds larger than the number of keys). -/
def forward (key : Int) : Nat → St σ → St σ
  | 0, s => s
  | f + 1, s =>
    if s.cur < key then
      let h := I.hasNext s.ex
      if h.1 then forward key f ⟨I.next h.2, (I.val (I.next h.2)).1, s.n⟩ else { s with ex := h.2 }
    else s

/-- updatestats.cpp:68-84 `UpdateStats_add::setKey`. -/
def addKey (fuel : Nat) (s : St σ) (key : Int) : St σ :=
  if s.cur > key then { s with n := s.n + 1 }
  else
    let s' := forward I key fuel s
    if s'.cur ≠ key then { s' with n := s'.n + 1 } else s'

/-- updatestats.cpp:168-180 `UpdateStats_rm::setKey`.  The assertion `currentkey == key` is not compiled into a release build and
is left out. -/
def rmKey (fuel : Nat) (s : St σ) (key : Int) (size : Int) : St σ :=
  let s' := forward I key fuel s
  if (I.val s'.ex).2 = size then { s' with n := s'.n + 1 } else s'

/-- `getNewKeys()` after `setKey` on the keys of the update with the sizes of their tables, in order (diffindex3.cpp:1274, once for each
table). -/
def newKeys (fuel : Nat) (add : Bool) (existing : Obj) (keys : List Pair) : Nat :=
  (keys.foldl (fun s k => if add then addKey existing.I fuel s k.1 else rmKey existing.I fuel s k.1 k.2)
    (start existing.I existing.s)).n

end Stats
end Trident
