import Verif.Query.PairCard
import Verif.Query.Aggr
import Verif.Update.Card
import Verif.Load.Loader
/-!
# The Python module

Models the methods of `trident.Db` in /repo/src/python/trident.cpp and of `trident.Itr` in /repo/src/python/itr.cpp.  Python objects are the numbers, booleans, tuples and lists they stand
for; reference counts, errors in the arguments and texts (`text=True`) are not modelled.  `get` is `Querier::getIterator`; a method whose loop does not end within `fuel` steps
has its list cut off (the theorems are for any number of steps that is large enough).  `none`: the iterator is NULL or undefined.
-/
namespace Trident.Python
open Trident Load

/-- querier.cpp:689-707 `getPermuted(idx, el1, el2, el3)`. -/
def getPermuted (get : Nat → Int → Int → Int → QRes) (idx : Nat) (el1 el2 el3 : Int) : QRes :=
  let t := unpermute idx el1 el2 el3
  get idx t.1 t.2.1 t.2.2

/-- The loop `while (itr->hasNext()) { itr->next(); … PyList_Append }`. -/
def collect {α : Type} (f : Row3 → α) (fuel : Nat) : QRes → Option (List α)
  | .itr o => some ((drain o.I fuel o.s).map f)
  | _ => none

/-! ## Lookups -/

/-- trident.cpp:287-305 `s(p, o)`: the second values in the order OPS. -/
def s (get : Nat → Int → Int → Int → QRes) (fuel : Nat) (p o : Int) : Option (List Int) := collect (fun r => r.2.2) fuel (getPermuted get 1 o p (-1))

/-- trident.cpp:585-602 `o(s, p)`: the second values in the order SPO. -/
def o (get : Nat → Int → Int → Int → QRes) (fuel : Nat) (s p : Int) : Option (List Int) := collect (fun r => r.2.2) fuel (getPermuted get 0 s p (-1))

/-- trident.cpp:659-678 `po(s)`: tuples of both values in the order SPO. -/
def po (get : Nat → Int → Int → Int → QRes) (fuel : Nat) (s : Int) : Option (List (Int × Int)) := collect (fun r => (r.2.1, r.2.2)) fuel (getPermuted get 0 s (-1) (-1))

/-- trident.cpp:680-699 `ps(o)`: in the order OPS. -/
def ps (get : Nat → Int → Int → Int → QRes) (fuel : Nat) (o : Int) : Option (List (Int × Int)) := collect (fun r => (r.2.1, r.2.2)) fuel (getPermuted get 1 o (-1) (-1))

/-- trident.cpp:701-720 `os(p)`: in the order POS. -/
def os (get : Nat → Int → Int → Int → QRes) (fuel : Nat) (p : Int) : Option (List (Int × Int)) := collect (fun r => (r.2.1, r.2.2)) fuel (getPermuted get 2 p (-1) (-1))

/-- trident.cpp:521-583 `all(permutation)`: the key and both values. -/
def all (get : Nat → Int → Int → Int → QRes) (fuel : Nat) (perm : Nat) : Option (List (Int × Int × Int)) :=
  collect (fun r => (r.1, r.2.1, r.2.2)) fuel (getPermuted get perm (-1) (-1) (-1))

/-- trident.cpp:321-340 `s_aggr_fromo(o)`: the first values in the order OSP.  `getA` is `getPermuted(idx, key, -1, -1)` with `ignoreSecondColumn`. -/
def sFromO (getA : Nat → Int → QRes) (fuel : Nat) (o : Int) : Option (List Int) := collect (fun r => r.2.1) fuel (getA 4 o)

/-- trident.cpp:604-622 `o_aggr_froms(s)`: the first values in the order SOP. -/
def oFromS (getA : Nat → Int → QRes) (fuel : Nat) (s : Int) : Option (List Int) := collect (fun r => r.2.1) fuel (getA 3 s)

/-- trident.cpp:624-642 `o_aggr_fromp(p)`: the first values in the order POS. -/
def oFromP (getA : Nat → Int → QRes) (fuel : Nat) (p : Int) : Option (List Int) := collect (fun r => r.2.1) fuel (getA 2 p)

/-- trident.cpp:342-372, 374-404, 406-436 `all_s()`, `all_p()`, `all_o()`: the keys of `getTermList` for SPO, POS and OPS. -/
def terms (getT : Nat → Option Obj) (fuel : Nat) (idx : Nat) : Option (List Int) := (getT idx).map fun o => (drain o.I fuel o.s).map (·.1)

/-! ## The iterator object -/

/-- itr.cpp:54-75 `field1()` on the object of `s_itr(p, o)` (trident.cpp:307-319, `pos` is 2): `none` is an iterator that was released (`itr` is NULL). -/
def field1 : Option Obj3 → Int × Option Obj3
  | none => (-1, none)
  | some it =>
    let h := it.I.hasNext it.s
    if h.1 then
      let n := it.I.next h.2
      ((it.I.val n).2.2, some { it with s := n })
    else (-1, none)

/-- The results of the first `n` calls of `field1()`. -/
def calls : Nat → Option Obj3 → List Int
  | 0, _ => []
  | n + 1, it => (field1 it).1 :: calls n (field1 it).2

/-! ## Joins -/

/-- trident.cpp:823-852: the loop of `join_e2e`.  The two iterators do not influence each other, so each is given by the values it returns. -/
def joinLoop : List Int → List Int → List Int
  | a :: as, b :: bs => if a = b then a :: joinLoop as bs else if a < b then joinLoop as (b :: bs) else joinLoop (a :: as) bs
  | _, _ => []
termination_by as bs => as.length + bs.length

/-- trident.cpp:812-856 `join_e2e(lh_idx, lh_key, lh_firstval, rh_idx, rh_key, rh_firstval)`. -/
def joinE2E (get : Nat → Int → Int → Int → QRes) (fuel : Nat) (lidx : Nat) (lkey lfirst : Int) (ridx : Nat) (rkey rfirst : Int) : Option (List Int) :=
  match collect (fun r => r.2.2) fuel (getPermuted get lidx lkey lfirst (-1)), collect (fun r => r.2.2) fuel (getPermuted get ridx rkey rfirst (-1)) with
  | some a, some b => some (joinLoop a b)
  | _, _ => none

/-- trident.cpp:205-213: move the second iterator until its value is at least `v1`; at the end the value is -1. -/
def advance (v1 : Int) : Int → List Int → Int × List Int
  | v2, [] => if v2 = -1 ∨ v2 < v1 then (-1, []) else (v2, [])
  | v2, x :: r => if v2 = -1 ∨ v2 < v1 then advance v1 x r else (v2, x :: r)

/-- trident.cpp:199-223: the loop of `existsQuery`, from the value `v2` of the second iterator. -/
def existsLoop : List Int → Int → List Int → Bool
  | [], _, _ => false
  | v1 :: r1, v2, r2 =>
    let m := advance v1 v2 r2
    if m.1 ≠ -1 then (if m.1 = v1 then true else existsLoop r1 m.1 m.2) else false

/-- trident.cpp:181-231 `existsQuery(term, (p1, p2, o2), "?cxxcc")`. -/
def existsQuery (get : Nat → Int → Int → Int → QRes) (fuel : Nat) (term p1 p2 o2 : Int) : Option Bool :=
  match collect (fun r => r.2.2) fuel (getPermuted get 0 term p1 (-1)), collect (fun r => r.2.2) fuel (getPermuted get 1 o2 p2 (-1)) with
  | some a, some b => some (existsLoop a (-1) b)
  | _, _ => none

/-! ## Counts -/

/-- `getCardOnIndex` on a stored graph with updates: the number, or the cardinality of the iterator, which is modelled for a graph without updates only. -/
def card (kb : KB) (E : UEnv) (C : Upd.Counts) (ups : List Upd.Stored) (ds : List Diff3.Diff) (idx : Nat) (s p o : Int) : Option Int :=
  match Upd.getCardOnIndex kb E C ups ds idx s p o with
  | .num n => some n
  | .ofItr _ => if ds.isEmpty then kb.cardTwo E.toEnv idx s p o else none
  | .undef => none

/-- trident.cpp:172-179 `exists(s, p, o)`. -/
def exists' (card : Nat → Int → Int → Int → Option Int) (s p o : Int) : Option Bool := (card 0 s p o).map (· ≠ 0)
/-- trident.cpp:242-249 `count_s(s)`. -/
def countS (card : Nat → Int → Int → Int → Option Int) (s : Int) : Option Int := card 0 s (-1) (-1)
/-- trident.cpp:251-258 `count_o(o)`. -/
def countO (card : Nat → Int → Int → Int → Option Int) (o : Int) : Option Int := card 1 (-1) (-1) o
/-- trident.cpp:260-267 `count_p(p)`. -/
def countP (card : Nat → Int → Int → Int → Option Int) (p : Int) : Option Int := card 2 (-1) p (-1)
/-- trident.cpp:233-240 `count_po(p, o)`, and 269-276 `n_s(p, o)`. -/
def countPO (card : Nat → Int → Int → Int → Option Int) (p o : Int) : Option Int := card 1 (-1) p o
/-- trident.cpp:278-285 `n_o(s, p)`. -/
def countSP (card : Nat → Int → Int → Int → Option Int) (s p : Int) : Option Int := card 0 s p (-1)

/-! ## Degrees -/

/-- `coord.exists(first) ? coord.getNElements(first) : coord.exists(second) ? … : 0`. -/
def elements (e : Nat → Option TreeEl) (first second : Nat) : Nat :=
  match e first with
  | some x => x.n
  | none => match e second with
    | some x => x.n
    | none => 0

/-- trident.cpp:438-469 `degree()`, over the entries of the tree of terms (`getItrTerms`, kb.cpp:477-479). -/
def degree (tree : List (Nat × (Nat → Option TreeEl))) : List (Nat × Nat) := tree.map fun e => (e.1, elements e.2 3 0 + elements e.2 1 4)
/-- trident.cpp:471-494 `indegree()`. -/
def indegree (tree : List (Nat × (Nat → Option TreeEl))) : List (Nat × Nat) := tree.map fun e => (e.1, elements e.2 4 1)
/-- trident.cpp:496-519 `outdegree()`. -/
def outdegree (tree : List (Nat × (Nat → Option TreeEl))) : List (Nat × Nat) := tree.map fun e => (e.1, elements e.2 3 0)

/-- trident.cpp:644-647 `n_triples()`: `KB::getSize` (kb.h:189-191), the number of triples when the graph was loaded. -/
def nTriples (C : Upd.Counts) : Int := C.inputSize

/-! ## The life of the object -/

/-- The pointers of `trident_Db` that are set: the graph, the querier and the layer for SPARQL (trident.h). -/
structure Handle where
  kb : Bool
  q : Bool
  db : Bool
deriving DecidableEq, Repr

/-- trident.cpp:50-71 `db_new` and `db_init`: `Db(path)` or `Db()` (the memory is cleared by `tp_alloc`). -/
def Handle.new (path : Bool) : Handle := if path then ⟨true, true, true⟩ else ⟨false, false, false⟩

/-- trident.cpp:73-170 `load(…)`: an error if there is a graph already; otherwise load it (`ok`: without an exception) and set two of the pointers. -/
def Handle.load (h : Handle) (ok : Bool) : Handle :=
  if h.kb then h else if ok then { h with kb := true, q := true } else { h with kb := false, q := false }

/-- What happens when a method uses a pointer: it works, or NULL is used. -/
inductive Use
  | works
  | undef
deriving DecidableEq, Repr

/-- trident.cpp:858-889 `sparql(query)` uses the graph and the layer (871: `*db.get()`). -/
def Handle.sparql (h : Handle) : Use := if h.kb ∧ h.db then .works else .undef

/-- The other methods use the querier or the graph. -/
def Handle.lookup (h : Handle) : Use := if h.q ∧ h.kb then .works else .undef

end Trident.Python
