import Verif.Load.Store
/-!
# The inserter: from sorted rows to tables and tree entries

Models /repo/src/trident/kb/inserter.cpp for one permutation, without aggregated tables (`aggregated = false`,
`posArray = NULL`), and /repo/src/trident/kb/loader.cpp:1160-1194 (the loop that feeds it, dropping duplicates).
-/
namespace Trident.Load
open Strat

/-- The parameters of an insertion: permutation; `canSkipTables` and `thresholdSkipTable`; the fixed strategy, if
one is used; `thresholdForColumnStorage` and `useRowForLargeTables`; the offload threshold of the column
inserter; the size above which a file is full. -/
structure Params where
  perm : Nat
  canSkip : Bool
  skipThr : Nat
  fixed : Option Nat
  ncc : Nat
  big : Bool
  thr : Nat
  maxSize : Nat

/-- inserter.h:36-39, loader.h `TreeEl`: what is registered for a key. -/
structure TreeEl where
  key : Nat
  n : Nat
  file : Nat
  pos : Nat
  strat : Nat
deriving DecidableEq, Repr

/-- inserter.h:46-100: the fields of `Inserter` for one permutation (`currentT1` is -1 at first), the table being
appended (strategy, file, mark, pairs appended so far), the store, and the entries handed to the tree writer.
`appended`: tableshandler.h:87 `nTriplesInserted`, increased by every call of `append` (tableshandler.cpp:201-204). -/
structure Ins where
  t1 : Int := -1
  n : Nat := 0
  values : List (Nat × Nat) := []
  skip : Bool := false
  table : Option (Nat × Nat × Nat × List (Nat × Nat)) := none
  store : Store := {}
  tree : List TreeEl := []
  appended : Nat := 0

/-- inserter.cpp:199-268 `storeInmemoryValuesIntoFiles`.  IDX_SOP, IDX_OSP, IDX_PSO are 3, 4, 5. -/
def Ins.storeValues (P : Params) (s : Ins) (vs : List (Nat × Nat)) : Ins :=
  if P.perm ≥ 3 ∧ P.canSkip = true ∧ vs.length < P.skipThr then { s with skip := true }
  else
    let strat := match P.fixed with
      | some f => f
      | none => determine vs P.ncc P.big
    let r := s.store.startAppend P.maxSize s.t1.toNat strat
    { s with skip := false, store := r.1, table := some (strat, r.2.1, r.2.2, vs), appended := s.appended + vs.length }

/-- tableshandler.cpp:203-230 and the `BinaryTableInserter` of the strategy: the bytes of the table. -/
def tableBytes (thr strat : Nat) (ps : List (Nat × Nat)) : List UInt8 :=
  match decode strat with
  | some L => L.encode thr ps
  | none => []

/-- inserter.cpp:153-196: close the table and register it. -/
def Ins.closeTable (P : Params) (s : Ins) : Ins :=
  if s.skip then s
  else match s.table with
    | some (strat, file, mark, ps) =>
      { s with store := s.store.write (tableBytes P.thr strat ps), table := none,
               tree := s.tree ++ [⟨s.t1.toNat, s.n, file, mark, strat⟩] }
    | none => s

/-- inserter.cpp:141-197 `writeCurrentEntryIntoTree`. -/
def Ins.writeCurrent (P : Params) (s : Ins) : Ins :=
  Ins.closeTable P (if s.n ≤ THRESHOLD then s.storeValues P s.values else s)

/-- inserter.cpp:43-66: a new key.  The arrays `values1`, `values2` are overwritten from the start. -/
def Ins.newKey (P : Params) (s : Ins) (k : Nat) : Ins :=
  if (k : Int) ≠ s.t1 then
    { (if s.t1 ≠ -1 then s.writeCurrent P else s) with t1 := k, n := 0, values := [] }
  else s

/-- inserter.cpp:114 `append` on the open table. -/
def Ins.appendPair (s : Ins) (p : Nat × Nat) : Ins :=
  { s with table := s.table.map fun t => (t.1, t.2.1, t.2.2.1, t.2.2.2 ++ [p]), appended := s.appended + 1 }

/-- inserter.cpp:68-116: keep the pair in memory, or append it.  (`throw 10` at line 88, for a skipped table, is not
reached when `skipThr < THRESHOLD`, which inserter.h:128 asserts.) -/
def Ins.addPair (P : Params) (s : Ins) (p : Nat × Nat) : Ins :=
  if s.n < THRESHOLD then { s with n := s.n + 1, values := s.values ++ [p] }
  else if s.n = THRESHOLD then (({ s with n := s.n + 1 } : Ins).storeValues P s.values).appendPair p
  else ({ s with n := s.n + 1 } : Ins).appendPair p

/-- inserter.cpp:32-118 `insert`. -/
def Ins.insert (P : Params) (s : Ins) (r : Nat × Nat × Nat) : Ins := (s.newKey P r.1).addPair P r.2

/-- inserter.cpp:270-278 `flush`. -/
def Ins.flush (P : Params) (s : Ins) : Ins :=
  { (if s.t1 ≠ -1 then s.writeCurrent P else s) with t1 := -1 }

/-- loader.cpp:1160-1176 (and 1107-1121): one row of the merged input; the previous row is remembered to drop
duplicates. -/
def loadRow (P : Params) (x : Option (Nat × Nat × Nat) × Ins) (r : Nat × Nat × Nat) :
    Option (Nat × Nat × Nat) × Ins :=
  if x.1 ≠ some r then (some r, x.2.insert P r) else x

/-- loader.cpp:1017-1194 `Loader::insert`: all rows, then `flush`. -/
def loadPerm (P : Params) (rows : List (Nat × Nat × Nat)) : Ins :=
  ((rows.foldl (loadRow P) (none, {})).2).flush P

end Trident.Load
