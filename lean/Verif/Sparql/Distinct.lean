import Verif.Sparql.Op
/-!
# DISTINCT

Model of /repo/rdf3x/src/rts/HashGroupify.cpp.  The groups of `groupsPool` (/repo/rdf3x/include/infra/util/VarPool.hpp) are numbered in the order of their
allocation.  `enumAll` visits them in the order of their addresses, which the program does not determine: `enum n` is the order for `n` groups.
-/
namespace Trident.Sparql.Distinct

/-- The hash value of a row (HashGroupify.cpp:80-82), in 64 bits. -/
def hash (t : Tup) : Nat := t.foldl (fun h v => (((h <<< 15) % 2 ^ 64) ||| (h >>> 49)) ^^^ v) 0

/-- `Group` (/repo/rdf3x/include/rts/operator/HashGroupify.hpp).  The link `next` is the order in `slot` below. -/
structure Group where
  hash : Nat
  count : Nat
  values : Tup

/-- The local variables of `first`: the groups, the hash table of `hashTableSize` chains, `load` and `maxLoad`. -/
structure HT where
  groups : List Group
  slot : Nat → List Nat
  size : Nat
  load : Nat
  maxLoad : Nat

/-- `static_cast<uint64_t>(0.8*hashTableSize)` (HashGroupify.cpp:74 and 112), computed exactly. -/
def maxLoadOf (n : Nat) : Nat := n * 4 / 5

/-- HashGroupify.cpp:73-76 -/
def HT.empty : HT := ⟨[], fun _ => [], 64, 0, maxLoadOf 64⟩

/-- `slot = g`, with `g->next = slot` (HashGroupify.cpp:26-28, and 101 with 106). -/
def push (t : Nat → List Nat) (s i : Nat) : Nat → List Nat := fun x => if x = s then i :: t x else t x

/-- `Rehasher` (HashGroupify.cpp:25-29) for all groups, in the order `order`. -/
def rehash (groups : List Group) (size : Nat) (order : List Nat) : Nat → List Nat :=
  order.foldl (fun t i => match groups[i]? with
    | some g => push t (g.hash &&& (size - 1)) i
    | none => t) fun _ => []

/-- The search in a chain (HashGroupify.cpp:85-96). -/
def search (groups : List Group) (t : Tup) (chain : List Nat) : Option Nat := chain.find? fun i => match groups[i]? with
  | some g => g.values == t
  | none => false

/-- Rehashing if the table is full (HashGroupify.cpp:108-116). -/
def grow (enum : Nat → List Nat) (s : HT) : HT :=
  if s.maxLoad ≤ s.load then { s with size := s.size * 2, maxLoad := maxLoadOf (s.size * 2), slot := rehash s.groups (s.size * 2) (enum s.groups.length) }
  else s

/-- One row of the input (HashGroupify.cpp:78-117). -/
def addRow (enum : Nat → List Nat) (s : HT) (r : Row) : HT :=
  match search s.groups r.2 (s.slot (hash r.2 &&& (s.size - 1))) with
  | some i => { s with groups := s.groups.modify i fun g => { g with count := g.count + r.1 } }
  | none => grow enum
      { s with groups := s.groups ++ [⟨hash r.2, r.1, r.2⟩], slot := push s.slot (hash r.2 &&& (s.size - 1)) s.groups.length, load := s.load + 1 }

/-- The rows that `first` and `next` return (HashGroupify.cpp:67-144): the groups in the order of `enumAll`. -/
def groupify (enum : Nat → List Nat) (input : List Row) : List Row :=
  let s := input.foldl (addRow enum) HT.empty
  (enum s.groups.length).filterMap fun i => (s.groups[i]?).map fun g => (g.count, g.values)

end Trident.Sparql.Distinct
