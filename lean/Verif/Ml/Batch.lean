/-!
# Batches of triples

Model of /repo/src/trident/ml/batch.cpp, with the file of triples (`createBatchFile`, the default), and of /repo/src/python/batcher.cpp.

Simplified: numbers are natural numbers, below 2^63 in the code.  A file that is mapped into memory can be read up to the end of its last page of 4096 bytes, the bytes after the file are 0
there; reading behind that page is undefined, `none`.
-/
namespace Trident.Batch

/-- Subject, predicate, object. -/
abbrev Triple := Nat × Nat × Nat

/-! ## The files -/

/-- Five bytes of a number: `write(cs, 5)` (batch.cpp:121-133), on a machine with the low byte first. -/
def put5 (x : Nat) : List Nat := [x % 256, x / 256 % 256, x / 65536 % 256, x / 16777216 % 256, x / 4294967296 % 256]

/-- A record of 15 bytes. -/
def record (t : Triple) : List Nat := put5 t.1 ++ (put5 t.2.1 ++ put5 t.2.2)

/-- `mapPredicates` (batch.cpp:75-88, 113-115): the position in the list of the predicates; a predicate that is not there gets 0. -/
def rank (preds : List Nat) (p : Nat) : Nat := if p ∈ preds then preds.idxOf p else 0

/-- The triple that is written; `preds` is `none` if predicates have ids of their own. -/
def stored (preds : Option (List Nat)) (t : Triple) : Triple :=
  match preds with
  | none => t
  | some l => (t.1, rank l t.2.1, t.2.2)

/-- The files `_batch_valid`, `_batch_test` and `_batch`. -/
structure Parts where
  valid : List Nat
  test : List Nat
  train : List Nat

/-- The loop of `createInputForBatch` (batch.cpp:90-135) with `createTraining`.  `valid` and `test` say whether the shares are above 0.  With each triple comes whether the random numbers that are
drawn for it are below the shares. -/
def createInput (preds : Option (List Nat)) (valid test : Bool) : List (Triple × Bool × Bool) → Parts → Parts
  | [], f => f
  | (t, v, u) :: l, f =>
    let r := record (stored preds t)
    if (valid && v) = true then createInput preds valid test l { f with valid := f.valid ++ r }
    else if (test && u) = true then createInput preds valid test l { f with test := f.test ++ r }
    else createInput preds valid test l { f with train := f.train ++ r }

/-- The end of the last page. -/
def pageEnd (n : Nat) : Nat := (n + 4095) / 4096 * 4096

/-- The number in bytes with the low byte first. -/
def number : List Nat → Nat
  | [] => 0
  | b :: l => b + 256 * number l

/-- `*(int64_t*)(raw + off) & 0xFFFFFFFFFF`: eight bytes are read. -/
def read5 (raw : List Nat) (off : Nat) : Option Nat :=
  if off + 8 ≤ pageEnd raw.length then some (number ((raw.drop off).take 8) % 1099511627776) else none

/-- A record (batch.cpp:389-395, 430-435, 470-475). -/
def getAt (raw : List Nat) (idx : Nat) : Option Triple :=
  match read5 raw (idx * 15), read5 raw (idx * 15 + 5), read5 raw (idx * 15 + 10) with
  | some s, some p, some o => some (s, p, o)
  | _, _, _ => none

/-- `loadTriples` (batch.cpp:496-512); the second argument is the number of records from `i` on. -/
def loadFrom (raw : List Nat) : Nat → Nat → Option (List Triple)
  | _, 0 => some []
  | i, n + 1 => match getAt raw i, loadFrom raw (i + 1) n with
    | some t, some l => some (t :: l)
    | _, _ => none

/-- `loadTriples` of a whole file.  An empty file cannot be mapped: an exception, `none`. -/
def loadTriples (raw : List Nat) : Option (List Triple) := if raw = [] then none else loadFrom raw 0 (raw.length / 15)

/-- The file that `start` maps (batch.cpp:337-346, 348-352), without shares for other files: a file that exists already is taken as it is. -/
def startFile (old : Option (List Nat)) (preds : Option (List Nat)) (graph : List Triple) : List Nat :=
  match old with
  | some f => f
  | none => (createInput preds false false (graph.map fun t => (t, false, false)) ⟨[], [], []⟩).train

/-! ## Batches -/

/-- The state of a `BatchCreator` after `start` (batch.cpp:324-371).  `filter` is `none` without a filter, otherwise `Feedback::shouldBeIncluded`. -/
structure Creator where
  raw : List Nat
  batchsize : Nat
  filter : Option (Triple → Bool)
  indices : List Nat
  currentidx : Nat

/-- The condition of the loop (batch.cpp:437, 477). -/
def Creator.uses (c : Creator) (t : Triple) : Bool :=
  match c.filter with
  | none => true
  | some f => f t

/-- The loop of `getBatch` (batch.cpp:465-483): up to so many triples, and the indices that are left. -/
def fill (raw : List Nat) (uses : Triple → Bool) : Nat → List Nat → Option (List Triple × List Nat)
  | 0, l => some ([], l)
  | _ + 1, [] => some ([], [])
  | k + 1, i :: l =>
    match getAt raw i with
    | none => none
    | some t => if uses t = true then (fill raw uses k l).map fun r => (t :: r.1, r.2) else fill raw uses (k + 1) l

/-- `getBatch` with three columns (batch.cpp:453-490); there is no further batch if it is empty. -/
def getBatch (c : Creator) : Option (List Triple × Creator) :=
  (fill c.raw c.uses c.batchsize (c.indices.drop c.currentidx)).map fun r => (r.1, { c with currentidx := c.indices.length - r.2.length })

/-- `getBatch` with one column (batch.cpp:379-410): the condition is `filter && shouldBeUsed`. -/
def getBatchOne (c : Creator) : Option (List Triple × Creator) :=
  (fill c.raw (fun t => match c.filter with
    | none => false
    | some f => f t) c.batchsize (c.indices.drop c.currentidx)).map fun r => (r.1, { c with currentidx := c.indices.length - r.2.length })

/-- `getBatchNr` (batch.cpp:416-451). -/
def getBatchNr (c : Creator) (nr : Nat) : Option (List Triple) := (fill c.raw c.uses c.batchsize (c.indices.drop (nr * c.batchsize))).map (·.1)

/-- `getNBatches` (batch.cpp:315-322). -/
def nBatches (c : Creator) : Nat := if c.indices.length % c.batchsize ≠ 0 then c.indices.length / c.batchsize + 1 else c.indices.length / c.batchsize

/-- Calls of `getBatch` until there is no further batch, as in a loop of Python over `getbatch`. -/
inductive Epoch : Creator → List (List Triple) → Prop
  | stop {c c'} : getBatch c = some ([], c') → Epoch c []
  | batch {c c' t b l} : getBatch c = some (t :: b, c') → Epoch c' l → Epoch c ((t :: b) :: l)

/-- `start` without a query and `shuffle` (batch.cpp:324-376): some order of the records. -/
def Shuffled (c : Creator) : Prop := c.indices.Perm (List.range (c.raw.length / 15)) ∧ c.currentidx = 0

/-- What an array of the last `getbatch` shows after the next one (batcher.cpp:68-86): the array is the memory of the vector, which is filled again. -/
def overwritten (old new : List Nat) : List Nat := (new ++ old.drop new.length).take old.length

end Trident.Batch
