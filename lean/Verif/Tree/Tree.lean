import Verif.Tree.Node
import Verif.Itr
/-!
# The term tree

Models the trees with numeric keys of `/repo/src/trident/tree/{root,intermediatenode,leaf,treeitr}.cpp`: the values are numbers
(`int64_t`) or table coordinates (`TermCoordinates`), so the type of the values is a parameter.  All nodes are kept in memory: the
replacement of leaves by the cache (cache.cpp) is not part of this file.  All leaves of a tree have the same depth, so a tree of depth
`d + 1` is a node over trees of depth `d`.
-/
namespace Trident.BTree

/-- leaf.h:42-56.  The arrays `detailPermutations1` and `detailPermutations2` (or `numValue`) are one list. -/
structure Leaf (β : Type) where
  keys : Keys
  vals : List β

/-- intermediatenode.h:30-33. -/
structure Inner (τ : Type) where
  keys : Keys
  ch : List τ

/-- A tree of the given depth. -/
def Tree (β : Type) : Nat → Type
  | 0 => Leaf β
  | d + 1 => Inner (Tree β d)

variable {β γ τ : Type}

/-- The child for a key: `p = pos(key); if (p < 0) p = -p - 1`. -/
def Where.index : Where → Nat
  | .found p => p
  | .ins p => p

/-- intermediatenode.cpp:129-132 and leaf.cpp:711-713 `smallestNumericKey`. -/
def Tree.smallest : {d : Nat} → Tree β d → Int
  | 0, l => Leaf.keys l |>.first
  | _ + 1, n => match (Inner.ch n)[0]? with
    | some c => Tree.smallest c
    | none => 0

/-- intermediatenode.cpp:134-137 and leaf.cpp:715-717 `largestNumericKey`. -/
def Tree.largest : {d : Nat} → Tree β d → Int
  | 0, l => (Leaf.keys l).largest
  | _ + 1, n => match (Inner.ch n)[(Inner.keys n).size]? with
    | some c => Tree.largest c
    | none => 0

/-- root.cpp:106-121, intermediatenode.cpp:91-98 and leaf.cpp:290-307 `get`. -/
def Tree.get : {d : Nat} → Tree β d → Int → Option β
  | 0, l, key => match (Leaf.keys l).pos key with
    | .found p => (Leaf.vals l)[p]?
    | .ins _ => none
  | _ + 1, n, key => match (Inner.ch n)[((Inner.keys n).pos key).index]? with
    | some c => Tree.get c key
    | none => none

section Put
/-! `new` makes the value stored for a new key, `upd` the one stored for a key that is there (leaf.cpp:339-391, 495-579):
for numbers both take the given number, for coordinates they are `addCoordinates`. -/
variable (new : γ → β) (upd : β → γ → β)

/-- leaf.cpp:339-391 and 495-579 `insertAtPosition`, without the case of a full leaf. -/
def Leaf.insert (l : Leaf β) (key : Int) (v : γ) : Leaf β :=
  match l.keys.pos key with
  | .found p => ⟨l.keys, l.vals.modify p (upd · v)⟩
  | .ins p => ⟨l.keys.putkeyAt key p, insertAt l.vals p (new v)⟩

/-- leaf.cpp:393-397, 581-585 `put`: a full leaf is split and the key goes to the half for it.  (The code calls `put` on the half, which
is not full, because `max / 2 < max`.) -/
def Leaf.put (max : Nat) (l : Leaf β) (key : Int) (v : γ) : Leaf β × Option (Leaf β) :=
  match l.keys.pos key with
  | .found _ => (l.insert new upd key v, none)
  | .ins p =>
    if l.keys.size = max then
      let h := l.keys.split max (max / 2)
      let a : Leaf β := ⟨h.1, l.vals.take (max / 2)⟩
      let b : Leaf β := ⟨h.2, (l.vals.drop (max / 2)).take (max / 2)⟩
      if p < max / 2 then (a.insert new upd key v, some b) else (a, some (b.insert new upd key v))
    else (l.insert new upd key v, none)

/-- intermediatenode.cpp:195-205 `numAvg`: the new key, `(key1 + key2) / 2`. -/
def avg {d : Nat} (a b : Tree β d) : Int := (a.largest + b.smallest).tdiv 2

/-- intermediatenode.cpp:207-288 `updateChildren(split, p, numAvg)`, `c` is `children[p]` and has been split. -/
def Inner.updateChildren (avg : τ → τ → Int) (max : Nat) (n : Inner τ) (c split : τ) (p : Nat) : Inner τ × Option (Inner τ) :=
  if n.keys.size = max then
    let h := n.keys.split max (max / 2)
    if p < max / 2 then
      (⟨h.1.removeLast.putkeyAt (avg c split) p, insertAt (n.ch.take (max / 2)) (p + 1) split⟩,
        some ⟨h.2, (n.ch.drop (max / 2)).take (max / 2 + 1)⟩)
    else if p > max / 2 then
      (⟨h.1, n.ch.take (max / 2 + 1)⟩,
        some ⟨h.2.removeFirst.putkeyAt (avg c split) (p - (max / 2 + 1)),
          insertAt ((n.ch.drop (max / 2 + 1)).take (max / 2)) (p - (max / 2 + 1) + 1) split⟩)
    else
      (⟨h.1, n.ch.take (max / 2 + 1)⟩, some ⟨h.2, split :: (n.ch.drop (max / 2 + 1)).take (max / 2)⟩)
  else (⟨n.keys.putkeyAt (avg c split) p, insertAt n.ch (p + 1) split⟩, none)

/-- intermediatenode.cpp:290-321 `put`.  The second component is the node that was split off. -/
def Tree.put (max : Nat) : {d : Nat} → Tree β d → Int → γ → Tree β d × Option (Tree β d)
  | 0, l, key, v => Leaf.put new upd max l key v
  | d + 1, n, key, v =>
    let n : Inner (Tree β d) := n
    let p := (n.keys.pos key).index
    match n.ch[p]? with
    | none => (n, none)
    | some c =>
      match Tree.put max c key v with
      | (c', none) => ((⟨n.keys, n.ch.set p c'⟩ : Inner (Tree β d)), none)
      | (c', some s) => Inner.updateChildren avg max ⟨n.keys, n.ch.set p c'⟩ c' s p

/-- leaf.cpp:474-478, 587-591 `append`: as `put`, at the end. -/
def Leaf.append (max : Nat) (l : Leaf β) (key : Int) (v : γ) : Leaf β × Option (Leaf β) :=
  if l.keys.size = max then
    let h := l.keys.split max (max / 2)
    let a : Leaf β := ⟨h.1, l.vals.take (max / 2)⟩
    let b : Leaf β := ⟨h.2, (l.vals.drop (max / 2)).take (max / 2)⟩
    if l.keys.size < max / 2 then (a.insert new upd key v, some b) else (a, some (b.insert new upd key v))
  else (⟨l.keys.putkeyAt key l.keys.size, insertAt l.vals l.keys.size (new v)⟩, none)

/-- intermediatenode.cpp:352-374 `append`. -/
def Tree.append (max : Nat) : {d : Nat} → Tree β d → Int → γ → Tree β d × Option (Tree β d)
  | 0, l, key, v => Leaf.append new upd max l key v
  | d + 1, n, key, v =>
    let n : Inner (Tree β d) := n
    let p := n.keys.size
    match n.ch[p]? with
    | none => (n, none)
    | some c =>
      match Tree.append max c key v with
      | (c', none) => ((⟨n.keys, n.ch.set p c'⟩ : Inner (Tree β d)), none)
      | (c', some s) => Inner.updateChildren avg max ⟨n.keys, n.ch.set p c'⟩ c' s p

end Put

/-- root.h: the root, a tree of some depth. -/
structure Root (β : Type) where
  depth : Nat
  tree : Tree β depth

/-- root.cpp:93-97, a new tree: one empty leaf. -/
def Root.empty : Root β := ⟨0, (⟨Keys.empty, []⟩ : Leaf β)⟩

/-- root.cpp:155-164: if the root was split there is a new root over the two halves (intermediatenode.cpp:35-56). -/
def Root.grow {d : Nat} : Tree β d × Option (Tree β d) → Root β
  | (t, none) => ⟨d, t⟩
  | (t, some s) => ⟨d + 1, (⟨Keys.empty.putkeyAt (avg t s) 0, [t, s]⟩ : Inner (Tree β d))⟩

/-- root.cpp:149-183 `put`. -/
def Root.put (new : γ → β) (upd : β → γ → β) (max : Nat) (r : Root β) (key : Int) (v : γ) : Root β := Root.grow (r.tree.put new upd max key v)

/-- root.cpp:198-222 `append`. -/
def Root.append (new : γ → β) (upd : β → γ → β) (max : Nat) (r : Root β) (key : Int) (v : γ) : Root β := Root.grow (r.tree.append new upd max key v)

/-- root.cpp:106-121 `get`. -/
def Root.get (r : Root β) (key : Int) : Option β := r.tree.get key

/-! ## Iteration -/

/-- The leaf at the end of a path of child positions. -/
def Tree.leafAt : {d : Nat} → Tree β d → List Nat → Option (Leaf β)
  | 0, l, _ => some l
  | _ + 1, n, p :: ps => match (Inner.ch n)[p]? with
    | some c => Tree.leafAt c ps
    | none => none
  | _ + 1, _, [] => none

/-- intermediatenode.cpp:105-127 `getPosChild`; `p` is the position at which the child is, `small` its smallest key, -1 stands for
`CHILD_NOT_FOUND`.  `lastUpdatedChild` is -1, it is only changed by the cache. -/
def posChild (k : Keys) (p : Nat) (small : Int) : Int :=
  if p = 0 then 0 else if (k.pos small).index = p then p else -1

/-- What the loop of `getRightSibling` finds inside of a subtree. -/
inductive Climb
  /-- The next leaf is in the subtree. -/
  | stop (path : List Nat)
  /-- The leaf was at the right end: go on in the parent. -/
  | up

/-- leaf.cpp:750-773 `getRightSibling`, from the leaf at the end of `path` to the node `n`.  The parent pointers of the code are the
nodes on the path. -/
def Tree.right : {d : Nat} → Tree β d → List Nat → Climb
  | 0, _, _ => .up
  | d + 1, n, path =>
    let n : Inner (Tree β d) := n
    match path with
    | [] => .up
    | p :: ps =>
      match n.ch[p]? with
      | none => .up
      | some c =>
        match Tree.right c ps with
        | .stop q => .stop (p :: q)
        | .up =>
          if posChild n.keys p c.smallest = n.keys.size then .up
          else .stop ((posChild n.keys p c.smallest + 1).toNat :: List.replicate d 0)

/-- treeitr.h: the iterator, the current leaf is given by its path. -/
structure TItr where
  path : List Nat
  pos : Nat

/-- root.cpp:242-256 `itr`: descend with the key 0. -/
def Tree.first : {d : Nat} → Tree β d → List Nat
  | 0, _ => []
  | _ + 1, n => ((Inner.keys n).pos 0).index :: match (Inner.ch n)[((Inner.keys n).pos 0).index]? with
    | some c => Tree.first c
    | none => []

/-- treeitr.cpp:38-66: `hasNext` and `next`, for the values as for the keys. -/
def Tree.itr {d : Nat} (t : Tree β d) : Itr TItr (Int × Option β) where
  hasNext s :=
    match t.leafAt s.path with
    | none => (false, s)
    | some l =>
      if s.pos ≥ l.keys.size then
        match t.right s.path with
        | .up => (false, s)
        | .stop q => (true, ⟨q, 0⟩)
      else (true, s)
  next s := ⟨s.path, s.pos + 1⟩
  val s := match t.leafAt s.path with
    | none => (0, none)
    | some l => (l.keys.keyAt (s.pos - 1), l.vals[s.pos - 1]?)

/-- root.cpp:242-256. -/
def Root.itr (r : Root β) : TItr := ⟨r.tree.first, 0⟩

end Trident.BTree
