import Verif.Query.Distinct
import Verif.Iter.Term
/-!
# The list of terms of a stored graph

`Querier::getTermList` without updates (/repo/src/trident/kb/querier.cpp:775-785, 898-913, /repo/src/trident/iterators/termitr.cpp, /repo/src/trident/iterators/reordertermitr.cpp).
For updates see `getTermList` in `Iter/Term.lean`.
-/
namespace Trident

/-- The permutation whose tables and numbers of elements are read (querier.cpp:900-905, termitr.cpp:170-174). -/
def baseOf (idx : Nat) : Nat := if idx > 2 then idx - 3 else idx

/-- `getKBTermList(perm, false)` (querier.cpp:898-913) with `TermItr::next` and `getCount` (termitr.cpp:61-69 and 162-177): the keys of the tables and the numbers of elements stored in the tree,
`nel`.  `none`: there are no tables. -/
def KB.storedTerms (kb : KB) (nel : Int → Nat → Option Nat) (idx : Nat) : Option (List Pair) :=
  (kb.files (baseOf idx)).map fun l => l.map fun e => (e.1, (((nel e.1 (baseOf idx)).getD 0 : Nat) : Int))

/-- The keys that `ReOrderTermItr` collects from SPO (reordertermitr.cpp:24-60): in a set, then sorted (`srt`).  Objects for OSP and OPS, predicates for PSO and POS; `none`: an exception or
a null pointer. -/
def KB.collectTerms (kb : KB) (E : Env) (srt : List Int → List Int) (idx : Nat) : Option (List Int) :=
  if idx = Order.osp.idx ∨ idx = Order.ops.idx then
    match kb.getIterator E 0 (-1) (-1) (-1) with
    | .itr o => some (srt ((drain o.I E.fuel o.s).map (·.2.2)).eraseDups)
    | _ => none
  else if idx = Order.pso.idx ∨ idx = Order.pos.idx then
    match kb.getIteratorD E 0 (-1) (-1) (-1) with
    | .itr o => some (srt ((drain o.I E.fuel o.s).map (·.2.1)).eraseDups)
    | _ => none
  else none

/-- `getTermList(perm)` without updates (querier.cpp:775-785).  The count of a key from `ReOrderTermItr` is 1 (/repo/include/trident/iterators/reordertermitr.h:71-73). -/
def KB.terms (kb : KB) (E : Env) (srt : List Int → List Int) (nel : Int → Nat → Option Nat) (idx : Nat) : Option Obj :=
  match kb.storedTerms nel idx with
  | some l => some (Obj.keys l)
  | none => (kb.collectTerms E srt idx).map fun ks => Obj.keys (ks.map fun k => (k, 1))

end Trident
