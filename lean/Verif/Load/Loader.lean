import Verif.Load.Inserter
import Verif.Query.KB
/-!
# Loading a graph

Models /repo/src/trident/kb/loader.cpp:3014-3110 (`CoordinatesMerger::get`, for six indices), 2484-2800 (`createIndices`),
2806-2897 (`createPermutations`), 2066-2084 (`generateNewPermutation`) and the opening of the result
(/repo/src/trident/kb/kb.cpp:235-260).

Simplified: the external sort (`PermSorter`, `mergeDiskFragments`, `FileMerger`) is a function that sorts rows; the
tree is the list of the entries put into it (C30-C34 are about the tree); aggregated indices, samples and graph
transformations are not modelled.
-/
namespace Trident.Load
open Strat

/-! ## Merging the coordinates of the permutations -/

/-- `getFirst` when the next record has the key: take it. -/
def take1 (key : Nat) : List TreeEl → Option TreeEl × List TreeEl
  | e :: r => if e.key = key then (some e, r) else (none, e :: r)
  | [] => (none, [])

/-- The head of the records of a permutation has a key ≥ `k`, or there is none left. -/
def okHead (k : Nat) : List TreeEl → Bool
  | e :: _ => k ≤ e.key
  | [] => true

/-- A permutation and the one stored with it (`ops` with `osp`, `pos` with `pso`): both are taken if the first has the key,
the second only then. -/
def takePair (key : Nat) (a b : List TreeEl) : (Option TreeEl × Option TreeEl) × List TreeEl × List TreeEl :=
  match take1 key a with
  | (some e, a') => let q := take1 key b; ((some e, q.1), a', q.2)
  | (none, a') => ((none, none), a', b)

/-- What `CoordinatesMerger::get` returns: the key and its records, and the records not yet taken; `none` for NULL. -/
abbrev Merged := Option ((Nat × (Nat → Option TreeEl)) × (Nat → List TreeEl))

/-- loader.cpp:3089-3104: the key comes from POS. -/
def mergerThird (s : Nat → List TreeEl) : Merged :=
  match s 2 with
  | pos :: pos' =>
    some ((pos.key, fun i => if i = 2 then some pos else if i = 5 then (take1 pos.key (s 5)).1 else none),
      fun i => if i = 2 then pos' else if i = 5 then (take1 pos.key (s 5)).2 else s i)
  | [] => none

/-- loader.cpp:3063-3088: the key comes from OPS. -/
def mergerSecond (s : Nat → List TreeEl) : Merged :=
  match s 1 with
  | ops :: ops' =>
    if okHead ops.key (s 2) then
      some ((ops.key, fun i => if i = 1 then some ops else if i = 4 then (take1 ops.key (s 4)).1
          else if i = 2 then (takePair ops.key (s 2) (s 5)).1.1
          else if i = 5 then (takePair ops.key (s 2) (s 5)).1.2 else none),
        fun i => if i = 1 then ops' else if i = 4 then (take1 ops.key (s 4)).2
          else if i = 2 then (takePair ops.key (s 2) (s 5)).2.1
          else if i = 5 then (takePair ops.key (s 2) (s 5)).2.2 else s i)
    else mergerThird s
  | [] => mergerThird s

/-- loader.cpp:3014-3107 `CoordinatesMerger::get` for `ncoordinates = 6`, the value `loadKB_createTree` passes
(1900).  `s i` are the records of permutation `i` not yet taken. -/
def mergerGet (s : Nat → List TreeEl) : Merged :=
  match s 0 with
  | spo :: spo' =>
    if okHead spo.key (s 1) && okHead spo.key (s 2) then
      some ((spo.key, fun i => if i = 0 then some spo else if i = 3 then (take1 spo.key (s 3)).1
          else if i = 1 then (takePair spo.key (s 1) (s 4)).1.1
          else if i = 4 then (takePair spo.key (s 1) (s 4)).1.2
          else if i = 2 then (takePair spo.key (s 2) (s 5)).1.1
          else if i = 5 then (takePair spo.key (s 2) (s 5)).1.2 else none),
        fun i => if i = 0 then spo' else if i = 3 then (take1 spo.key (s 3)).2
          else if i = 1 then (takePair spo.key (s 1) (s 4)).2.1
          else if i = 4 then (takePair spo.key (s 1) (s 4)).2.2
          else if i = 2 then (takePair spo.key (s 2) (s 5)).2.1
          else if i = 5 then (takePair spo.key (s 2) (s 5)).2.2 else s i)
    else mergerSecond s
  | [] => mergerSecond s

/-- loader.cpp:2912-2945 `mergeTermCoordinates`: the entries, in the order in which they are put into the tree. -/
def mergerLoop : Nat → (Nat → List TreeEl) → List (Nat × (Nat → Option TreeEl))
  | 0, _ => []
  | n + 1, s =>
    match mergerGet s with
    | some (x, s') => x :: mergerLoop n s'
    | none => []

/-- The loop runs until `get` returns NULL; every round takes a record of SPO, OPS or POS. -/
def mergeCoordinates (s : Nat → List TreeEl) : List (Nat × (Nat → Option TreeEl)) :=
  mergerLoop ((s 0).length + (s 1).length + (s 2).length) s

/-! ## The file of tree entries -/

/-- loader.h:89-97 `TreeWriter::addEntry`: a record of 23 bytes. -/
def TreeEl.enc (e : TreeEl) : List UInt8 :=
  encBE 8 e.key ++ encBE 8 e.n ++ encBE 2 e.file ++ encBE 4 e.pos ++ [UInt8.ofNat e.strat]

/-- loader.cpp:3110-3120 `getFirst` until the end of the file: records of 23 bytes.  (Numbers are read as
signed; that they are below half of the range is a hypothesis of the theorems.) -/
def readTree (bs : List UInt8) : List TreeEl :=
  if h : bs.length < 23 then []
  else ⟨decBE (bs.take 8), decBE ((bs.drop 8).take 8), decBE ((bs.drop 16).take 2),
    decBE ((bs.drop 18).take 4), (bs.getD 22 0).toNat⟩ :: readTree (bs.drop 23)
termination_by bs.length
decreasing_by simp; omega

/-! ## Permutations of the input -/

/-- A triple of the input, compressed to numbers. -/
abbrev T3 := Nat × Nat × Nat

/-- loader.cpp:2844-2880 `createPermutations`: what is written for a triple (also kognac's `Compressor`). -/
def permRow (idx : Nat) (t : T3) : T3 :=
  match idx with
  | 0 => (t.1, t.2.1, t.2.2)
  | 1 => (t.2.2, t.2.1, t.1)
  | 2 => (t.2.1, t.2.2, t.1)
  | 3 => (t.1, t.2.2, t.2.1)
  | 4 => (t.2.2, t.1, t.2.1)
  | _ => (t.2.1, t.1, t.2.2)

/-- Element of a row by position (`triple[pos]`). -/
def T3.nth (t : T3) : Nat → Nat
  | 0 => t.1
  | 1 => t.2.1
  | _ => t.2.2

/-- loader.cpp:2066-2084 `generateNewPermutation_seq` on a row. -/
def regenRow (pos0 pos1 pos2 : Nat) (t : T3) : T3 := (t.nth pos0, t.nth pos1, t.nth pos2)

/-- The variables `posS`, `posP`, `posO` of `createIndices`. -/
structure PosVars where
  s : Nat
  p : Nat
  o : Nat

/-- loader.cpp:2484-2800 with `createIndicesInBlocks`: one step, from the rows of the previous permutation to those
of permutation `idx`, and the variables after it. -/
def regenStep (idx : Nat) (v : PosVars) (rows : List T3) : List T3 × PosVars :=
  match idx with
  | 1 => (rows.map (regenRow v.o v.p v.s), ⟨2, 1, 0⟩)
  | 3 => (rows.map (regenRow v.s v.o v.p), ⟨0, 2, 1⟩)
  | 4 => (rows.map (regenRow v.o v.s v.p), ⟨1, 2, 0⟩)
  | 2 => (rows.map (regenRow v.p v.o v.s), ⟨2, 0, 1⟩)
  | _ => (rows.map (regenRow v.p v.s v.o), v)

/-- The permutations of the input with `createIndicesInBlocks`: those of `perms`, each from the one before, the
first from SPO. -/
def regenAll : List Nat → PosVars → List T3 → List (Nat × List T3)
  | [], _, _ => []
  | i :: is, v, rows =>
    let r := regenStep i v rows
    (i, r.1) :: regenAll is r.2 r.1

/-! ## The result -/

/-- Which permutations are loaded (loader.cpp:1486-1535, without aggregated indices) for `nindices`. -/
def permsOf : Nat → Nat → Bool
  | 1, i => i = 0
  | 3, i => i < 3
  | 4, i => i = 0 ∨ i = 3 ∨ i = 1 ∨ i = 4
  | 6, i => i < 6
  | _, _ => false

/-- The settings of a load: number of indices, strategy parameters, and the sort of the rows. -/
structure Config where
  nindices : Nat
  canSkip : Bool
  skipThr : Nat
  fixed : Option Nat
  ncc : Nat
  big : Bool
  thr : Nat
  maxSize : Nat
  sort : List T3 → List T3

/-- The parameters with which a permutation is inserted (loader.cpp:2518-2800: `canSkipTables` is passed for
permutations 3, 4 and 5 only). -/
def Config.params (c : Config) (i : Nat) : Params :=
  ⟨i, c.canSkip && decide (i ≥ 3), c.skipThr, c.fixed, c.ncc, c.big, c.thr, c.maxSize⟩

/-- What is on disk for permutation `i` after loading `g`. -/
def Config.ins (c : Config) (g : List T3) (i : Nat) : Ins :=
  if permsOf c.nindices i then loadPerm (c.params i) (c.sort (g.map (permRow i))) else {}

/-- The entries put into the tree, from the files of records. -/
def Config.tree (c : Config) (g : List T3) : List (Nat × (Nat → Option TreeEl)) :=
  mergeCoordinates fun i => readTree ((c.ins g i).tree.flatMap TreeEl.enc)

/-- querier.cpp:1001-1004: the table of an entry. -/
def coordOf (m : Mem) (M : Maps) (file mark strat : Nat) : Coord :=
  let t := M.getTable m file mark
  ⟨strat, t.1, t.2⟩

/-- The graph as a reader sees it when the files of permutation `i` are mapped by `M i`: `present` from
`permsOf` (kb.cpp:86-99), the tree lookup, and for every permutation the tables listed by `TermItr`, or no storage object
if nothing was written (kb.cpp:241-250). -/
def Config.open' (c : Config) (g : List T3) (m : Mem) (M : Nat → Maps) : KB where
  mem := m
  present := permsOf c.nindices
  coords k := ((c.tree g).find? fun e => (e.1 : Int) = k).map fun e i =>
    (e.2 i).map fun t => coordOf m (M i) t.file t.pos t.strat
  files i :=
    if (c.ins g i).tree = [] then none
    else some ((drain (TermIt.itr m (M i)) ((c.ins g i).tree.length + 1) (TermIt.init m (M i))).map fun r =>
      ((r.1 : Int), coordOf m (M i) r.2.1 r.2.2.1.toNat r.2.2.2))

end Trident.Load
