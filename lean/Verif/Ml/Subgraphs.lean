/-!
# Subgraphs with averaged embeddings

Model of `AvgSubgraphs` and `VarSubgraphs` (/repo/src/trident/ml/subgraphs.cpp:93-264) and `addSubgraph`
(/repo/include/trident/ml/subgraphs.h:67-76).

Simplified: numbers are natural numbers, below 2^63 in the code. Nothing is assumed of `double`: it
is any type with a zero, an addition and a division by a number. `emb` is what `Embeddings::get`
returns for a number with 64 bits, see `getEmb`; the exception for a node without embedding is not modelled.
-/
namespace Trident.Subgraphs

/-- What is used of `double`. -/
structure Num (K : Type) where
  zero : K
  add : K → K → K
  div : K → Nat → K

/-- `Embeddings::get` (/repo/include/trident/ml/embeddings.h:143-149) in the rows `tab`: the
parameter is an `uint32_t`, so the number of the node loses its high bits. -/
def getEmb {K : Type} (tab : Nat → List K) (s : Nat) : List K := tab (s % 2 ^ 32)

/-- `Metadata` (/repo/include/trident/ml/subgraphs.h:18-23); `sp` is: the type is `SP`. -/
structure Meta where
  id : Nat
  sp : Bool
  ent : Nat
  rel : Nat
  size : Nat
deriving DecidableEq

/-- The fields `subgraphs` and `params`. -/
structure Subs (K : Type) where
  metas : List Meta
  params : List K

/-- `current_s`, `count`, `prevo` and `prevp` (subgraphs.cpp:98-113). -/
structure Cur (K : Type) where
  sum : List K
  count : Nat
  prevo : Nat
  prevp : Nat

/-- `addSubgraph` (/repo/include/trident/ml/subgraphs.h:67-76). -/
def addSubgraph (ms : List Meta) (sp : Bool) (ent rel size : Nat) : List Meta :=
  ms ++ [⟨ms.length, sp, ent, rel, size⟩]

/-- The current group is added if it is large enough (subgraphs.cpp:128-135, 152-159). -/
def flush {K : Type} (N : Num K) (mincard : Nat) (sp : Bool) (c : Cur K) (g : Subs K) : Subs K :=
  if c.count > mincard then
    ⟨addSubgraph g.metas sp c.prevo c.prevp c.count, g.params ++ c.sum.map fun x => N.div x c.count⟩
  else g

/-- The loop over the rows: key, first and second value (subgraphs.cpp:115-159). -/
def loop {K : Type} (N : Num K) (dim mincard : Nat) (sp : Bool) (emb : Nat → List K) :
    List (Nat × Nat × Nat) → Cur K → Subs K → Subs K
  | [], c, g => flush N mincard sp c g
  | (o, p, s) :: rows, c, g =>
    if o ≠ c.prevo ∨ p ≠ c.prevp then
      loop N dim mincard sp emb rows ⟨List.zipWith N.add (List.replicate dim N.zero) (emb s), 1, o, p⟩
        (flush N mincard sp c g)
    else loop N dim mincard sp emb rows { c with sum := List.zipWith N.add c.sum (emb s), count := c.count + 1 } g

/-- `processItr` (subgraphs.cpp:93-160). -1 is compared as an `uint64_t`. -/
def processItr {K : Type} (N : Num K) (dim mincard : Nat) (sp : Bool) (emb : Nat → List K)
    (rows : List (Nat × Nat × Nat)) (g : Subs K) : Subs K :=
  loop N dim mincard sp emb rows ⟨List.replicate dim N.zero, 0, 2 ^ 64 - 1, 2 ^ 64 - 1⟩ g

/-- `calculateEmbeddings` (subgraphs.cpp:162-179): `ops` and `spo` are the rows of the two scans. -/
def calculate {K : Type} (N : Num K) (dim mincard : Nat) (emb : Nat → List K)
    (ops spo : List (Nat × Nat × Nat)) (g : Subs K) : Subs K :=
  processItr N dim mincard true emb spo (processItr N dim mincard false emb ops g)

/-! ## `VarSubgraphs` -/

/-- The variances of a group (subgraphs.cpp:209-224, 245-260): `sq e m` is the square of the
difference, `subjects` are the nodes of the group. -/
def groupVar {K : Type} (N : Num K) (sq : K → K → K) (dim : Nat) (emb : Nat → List K) (sum : List K) (count : Nat)
    (subjects : List Nat) : List K :=
  (List.range dim).map fun i =>
    let mean := N.div (sum.getD i N.zero) count
    let diffs := subjects.foldl (fun acc s => N.add acc (sq ((emb s).getD i N.zero) mean)) N.zero
    if count ≤ 1 then diffs else N.div diffs (count - 1)

/-- The current group is added if it is large enough (subgraphs.cpp:207-227, 243-263). The averages
and the variances are two lists, so they can be added one after the other. -/
def flushVar {K : Type} (N : Num K) (sq : K → K → K) (dim mincard : Nat) (emb : Nat → List K) (sp : Bool) (c : Cur K)
    (subjects : List Nat) (g : Subs K) (vars : List K) : Subs K × List K :=
  if c.count > mincard then
    (⟨addSubgraph g.metas sp c.prevo c.prevp c.count, g.params ++ c.sum.map fun x => N.div x c.count⟩,
      vars ++ groupVar N sq dim emb c.sum c.count subjects)
  else (g, vars)

/-- The loop over the rows (subgraphs.cpp:200-263). -/
def loopVar {K : Type} (N : Num K) (sq : K → K → K) (dim mincard : Nat) (sp : Bool) (emb : Nat → List K) :
    List (Nat × Nat × Nat) → Cur K → List Nat → Subs K → List K → Subs K × List K
  | [], c, subjects, g, vars => flushVar N sq dim mincard emb sp c subjects g vars
  | (o, p, s) :: rows, c, subjects, g, vars =>
    if o ≠ c.prevo ∨ p ≠ c.prevp then
      let (g, vars) := flushVar N sq dim mincard emb sp c subjects g vars
      loopVar N sq dim mincard sp emb rows ⟨List.zipWith N.add (List.replicate dim N.zero) (emb s), 1, o, p⟩ [s] g vars
    else
      loopVar N sq dim mincard sp emb rows { c with sum := List.zipWith N.add c.sum (emb s), count := c.count + 1 }
        (subjects ++ [s]) g vars

/-- `VarSubgraphs::processItr` (subgraphs.cpp:181-264). -/
def processVar {K : Type} (N : Num K) (sq : K → K → K) (dim mincard : Nat) (sp : Bool) (emb : Nat → List K)
    (rows : List (Nat × Nat × Nat)) (g : Subs K) (vars : List K) : Subs K × List K :=
  loopVar N sq dim mincard sp emb rows ⟨List.replicate dim N.zero, 0, 2 ^ 64 - 1, 2 ^ 64 - 1⟩ [] g vars

/-- `calculateEmbeddings` (subgraphs.cpp:162-179) of a `VarSubgraphs`: `processItr` is virtual. -/
def calculateVar {K : Type} (N : Num K) (sq : K → K → K) (dim mincard : Nat) (emb : Nat → List K)
    (ops spo : List (Nat × Nat × Nat)) (g : Subs K) (vars : List K) : Subs K × List K :=
  let (g, vars) := processVar N sq dim mincard false emb ops g vars
  processVar N sq dim mincard true emb spo g vars

end Trident.Subgraphs
