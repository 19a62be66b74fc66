import Verif.Query.KB
/-!
# Scans with patterns

Models `/repo/src/trident/sparql/tupleiterator.cpp` (`TupleKBItr`), `Tuple` and `Term` of `/repo/include/trident/model/`, and `KBScan` of
`/repo/src/trident/sparql/sparqloperators.cpp`.
-/
namespace Trident.Join

/-- term.h: an id, zero for a constant, and a value. -/
structure Term where
  id : Nat
  value : Int
deriving DecidableEq

/-- term.h `isVariable`. -/
def Term.isVar (t : Term) : Bool := decide (t.id > 0)

/-- tuple.h, with three terms. -/
structure Tup where
  s : Term
  p : Term
  o : Term

/-- tuple.h:39-41 `get`. -/
def Tup.get (t : Tup) : Nat → Term
  | 0 => t.s
  | 1 => t.p
  | _ => t.o

/-- tuple.h:42-44 `set`. -/
def Tup.set (t : Tup) (x : Term) : Nat → Tup
  | 0 => { t with s := x }
  | 1 => { t with p := x }
  | _ => { t with o := x }

/-- tuple.h:46-60 `getRepeatedVars`: the pairs of positions with the same variable. -/
def Tup.repeated (t : Tup) : List (Nat × Nat) :=
  [(0, 1), (0, 2), (1, 2)].filter fun e => (t.get e.1).isVar && decide ((t.get e.2).id = (t.get e.1).id)

/-- What `init` gives: an iterator that cannot be used (the querier returned NULL or is undefined, or `checkFields` reads a position that was not set), or
an iterator. -/
inductive TRes
  | null
  | undef
  | itr (o : Obj3) (pos : List Nat) (eq : List (Nat × Nat))

/-- tupleiterator.cpp:33-47: the arguments of the query. -/
def Tup.arg (t : Tup) (j : Nat) : Int := if (t.get j).isVar then -1 else (t.get j).value

/-- tupleiterator.cpp:53-67: the variables are numbered in the order of the columns to sort by. -/
def sortArgs : List Nat → Int → Int × Int × Int → Int × Int × Int
  | [], _, a => a
  | f :: fs, v, a =>
    sortArgs fs (v - 1) (match f with
      | 0 => (v, a.2.1, a.2.2)
      | 1 => (a.1, v, a.2.2)
      | 2 => (a.1, a.2.1, v)
      | _ => a)

/-- tupleiterator.cpp:70-75: a negative argument is a free position. -/
def free (v : Int) : Int := if v < 0 then -1 else v

/-- tupleiterator.cpp:84-91 `varsPos`: where the variables are in a row of the index. -/
def varsPos (t : Tup) (inv : List Nat) : List Nat := ([0, 1, 2].filter fun j => (t.get j).isVar).map fun j => inv.getD j 3

/-- tupleiterator.cpp:29-101 `init`.  `get` is `Querier::getIterator`.  With `onlyVars` the positions after the variables are not initialized, and
`checkFields` is undefined on them (here from the start). -/
def init (get : Nat → Int → Int → Int → QRes) (t : Tup) (sort : Option (List Nat)) (onlyVars : Bool) : TRes :=
  let a : Int × Int × Int := (t.arg 0, t.arg 1, t.arg 2)
  let b := sort.elim a fun fs => sortArgs fs (-2) a
  let idx := getIndex b.1 b.2.1 b.2.2
  let q := sort.elim b fun _ => (free b.1, free b.2.1, free b.2.2)
  let pos := if onlyVars then varsPos t (getInvOrder idx) else getInvOrder idx
  let eq := t.repeated
  match get idx q.1 q.2.1 q.2.2 with
  | .null => .null
  | .undef => .undef
  | .itr o => if eq.all fun e => decide (e.1 < pos.length) && decide (e.2 < pos.length) then .itr o pos eq else .undef

/-- tupleiterator.cpp:151-163, the `switch`. -/
def field (r : Row3) : Nat → Int
  | 0 => r.1
  | 1 => r.2.1
  | _ => r.2.2

/-- tupleiterator.cpp:151-163 `getElementAt`. -/
def elementAt (pos : List Nat) (r : Row3) (p : Nat) : Int := field r (pos.getD p 3)

/-- tupleiterator.cpp:103-114 `checkFields`. -/
def checkFields (pos : List Nat) (eq : List (Nat × Nat)) (r : Row3) : Bool :=
  eq.all fun e => decide (elementAt pos r e.1 = elementAt pos r e.2)

namespace KbItr
variable (fuel : Nat) (o : Obj3) (pos : List Nat) (eq : List (Nat × Nat))

/-- The state: that of the querier's iterator, `nextProcessed`, `nextOutcome`. -/
structure St (o : Obj3) where
  phys : o.σ
  done : Bool
  outcome : Bool

/-- tupleiterator.cpp:122-130: skip the rows that do not have equal values. -/
def skip : Nat → o.σ → Bool × o.σ
  | 0, s => (false, s)
  | n + 1, s =>
    if checkFields pos eq (o.I.val s) then (true, s)
    else if (o.I.hasNext s).1 then skip n (o.I.next (o.I.hasNext s).2)
    else (false, (o.I.hasNext s).2)

/-- tupleiterator.cpp:116-137 `hasNext`. -/
def hasNext (s : St o) : Bool × St o :=
  if s.done then (s.outcome, s)
  else
    let h := o.I.hasNext s.phys
    if h.1 then
      let r := skip o pos eq fuel (o.I.next h.2)
      (r.1, ⟨r.2, true, r.1⟩)
    else (false, ⟨h.2, true, false⟩)

/-- tupleiterator.cpp:139-145 `next`. -/
def next (s : St o) : St o :=
  if s.done then { s with done := false } else { s with phys := o.I.next s.phys }

/-- The iterator; what is read is `getElementAt` of all columns.  `fuel` bounds the rows that are skipped. -/
def itr : Itr (St o) (List Int) where
  hasNext := hasNext fuel o pos eq
  next := next o
  val := fun s => (List.range pos.length).map (elementAt pos (o.I.val s.phys))

end KbItr

/-- Reading all rows, with any bound on the rows that are skipped that is large enough. -/
def TRes.Returns (r : TRes) (out : List (List Int)) : Prop :=
  ∃ o pos eq, r = .itr o pos eq ∧ ∃ N, ∀ fuel, N ≤ fuel → Yields (KbItr.itr fuel o pos eq) ⟨o.s, false, false⟩ out

/-! ## Patterns with named variables -/

/-- query.h:31-141 `Pattern`: the terms (negative for a variable), and the variables with their positions.  Names are numbers here. -/
structure NPat where
  s : Int
  p : Int
  o : Int
  vars : List (Nat × Nat)

/-- sparqloperators.cpp:180-194, the loop over the variables: name, position. -/
def nameVars : List (Nat × Nat) → Nat → Option Nat → Tup → Tup
  | [], _, _, t => t
  | v :: vs, idx, last, t =>
    let t' := t.set ⟨idx, 0⟩ v.2
    if some v.1 ≠ last then nameVars vs (idx + 1) (some v.1) t' else nameVars vs idx last t'

/-- sparqloperators.cpp:160-177: a constant, or a variable with the low 8 bits of a negative number as its id (they are overwritten). -/
def rawTerm (v : Int) : Term := if v < 0 then ⟨(v % 256).toNat, 0⟩ else ⟨0, v⟩

/-- sparqloperators.cpp:158-195 `KBScan::KBScan`. -/
def NPat.tuple (q : NPat) : Tup := nameVars q.vars 1 none ⟨rawTerm q.s, rawTerm q.p, rawTerm q.o⟩

/-- sparqloperators.cpp:147-151, 197-202: the columns of a scan, and its iterator. -/
def NPat.columns (q : NPat) : List Nat := q.vars.map (·.1)

def NPat.scan (get : Nat → Int → Int → Int → QRes) (q : NPat) : TRes := init get q.tuple none true

end Trident.Join
