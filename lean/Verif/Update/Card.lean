import Verif.Update.Updater
import Verif.Query.Perm
/-!
# Sizes and cardinalities

The number of triples of the graph and of the answers to a pattern, as reported by the querier: /repo/src/trident/kb/querier.cpp:134-214
(`getCardOnIndex`), 469-540 (`getCard`), /repo/include/trident/kb/querier.h:491-503 (`getInputSize`), /repo/src/trident/kb/diffindex3.cpp:697-702,
1506-1534 (`getSize`, `getCard` of an update), and the number of triples kept with the graph (/repo/src/trident/kb/kb.cpp:499-503).
-/
namespace Trident.Upd
open Load Diff3

/-- What the querier knows about the stored graph: `inputSize` (kb.cpp:446, the number of triples in the statistics of the graph) and the
number of elements in an entry of the tree (`tree->get`, `exists(idx)`, `getNElements(idx)`). -/
structure Counts where
  inputSize : Nat
  nel : Int → Nat → Option Nat

/-- kb.cpp:499-503: the number of triples appended to the tables of SPO (a loaded graph with labels; the sum starts at 0, kb.cpp:131), and the entries
of the tree. -/
def _root_.Trident.Load.Config.counts (c : Config) (g : List T3) : Counts where
  inputSize := (c.ins g 0).appended
  nel k i := ((c.tree g).find? fun e => (e.1 : Int) = k).bind fun e => (e.2 i).map (·.n)

/-- diffindex3.cpp:1506-1508 `getSize`: the number of triples written at 697-702, which is the sum over the keys of SPO of the numbers of rows
(diffindex3.cpp:1490-1503). -/
def Stored.size (u : Stored) : Nat := ((u.out 0).keys.map (·.n)).sum

/-- diffindex3.cpp:1510-1534 `getCard`: the number of rows of the key in the tree of its position. -/
def Stored.card (u : Stored) (idx : Nat) (key : Int) : Nat :=
  match (u.out (Diff3.first idx)).keys.find? fun k => (k.key : Int) = key with
  | some k => k.n
  | none => 0

/-- querier.h:491-503 `getInputSize`.  (The 64-bit arithmetic is modelled by integers.) -/
def getInputSize (C : Counts) (ups : List Stored) : Int :=
  ups.foldl (fun tot u => if u.add then tot + u.size else tot - u.size) (C.inputSize : Int)

/-- The number of free positions (querier.cpp:157-160,493-496). -/
def countUnbound (s p o : Int) : Nat := (if s < 0 then 1 else 0) + (if p < 0 then 1 else 0) + (if o < 0 then 1 else 0)

/-- How a cardinality is answered: a number, `getCardinality` of the iterator `o` (see C16), or no defined answer. -/
inductive CardRes
  | num (n : Int)
  | ofItr (o : Obj3)
  | undef

/-- querier.cpp:134-214 `getCardOnIndex(idx, s, p, o)` with `skipLast` false.  The key looked up last is the one of the iterator just created. -/
def getCardOnIndex (kb : KB) (E : UEnv) (C : Counts) (ups : List Stored) (ds : List Diff) (idx : Nat) (s p o : Int) : CardRes :=
  if (permute idx s p o).1 < 0 then .num (getInputSize C ups)
  else match kb.getIteratorU E ds idx s p o with
    | .itr it =>
      if (it.I.hasNext it.s).1 then
        if countUnbound s p o ≥ 2 then
          let idx2 := if idx > 2 then idx - 3 else idx
          if kb.present idx2 then
            let key := (permute idx s p o).1
            .num (ups.foldl (fun n u => if u.add then n + u.card idx2 key else n - u.card idx2 key) (((C.nel key idx2).getD 0 : Nat) : Int))
          else .ofItr { it with s := (it.I.hasNext it.s).2 }
        else if countUnbound s p o = 1 then .ofItr { it with s := (it.I.hasNext it.s).2 }
        else .num 1
      else .num 0
    | _ => .undef

/-- querier.cpp:486-540 `getCard_internal`. -/
def getCardInternal (kb : KB) (E : UEnv) (C : Counts) (ups : List Stored) (ds : List Diff) (s p o : Int) : CardRes :=
  if s < 0 ∧ p < 0 ∧ o < 0 then .num (getInputSize C ups)
  else
    let idx := getIndex s p o
    if countUnbound s p o = 2 ∧ (kb.present idx ∨ (idx ≥ 3 ∧ kb.present (idx - 3))) then
      let key := if s ≥ 0 then s else if p ≥ 0 then p else o
      .num (ups.foldl (fun n u => n + u.card idx key) (((C.nel key idx).getD 0 : Nat) : Int))
    else match kb.getIteratorU E ds idx s p o with
      | .itr it =>
        let h := it.I.hasNext it.s
        if h.1 then
          if countUnbound s p o = 0 then .num 1 else .ofItr { it with s := it.I.next h.2 }
        else .num 0
      | _ => .undef

/-- querier.cpp:469-484: the table of `memo` is static, its keys are the address of the querier and the pattern. -/
abbrev Memo := List ((Nat × Int × Int × Int) × Int)

/-- querier.cpp:472-483,542-544 `getCard`: look up the table, otherwise compute and remember.  `f` is `getCard_internal` of the querier at the
address `q`. -/
def getCard (T : Memo) (q : Nat) (f : Int → Int → Int → Int) (s p o : Int) : Int × Memo :=
  match T.find? fun e => e.1 = (q, s, p, o) with
  | some e => (e.2, T)
  | none => (f s p o, ((q, s, p, o), f s p o) :: T)

end Trident.Upd
