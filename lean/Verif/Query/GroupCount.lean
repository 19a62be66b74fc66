import Verif.Query.Edges
import Verif.Query.Perm
/-!
# The number of groups of edges

Models `cnt_grp_*` (/repo/include/trident/kb/querier.h:792-882), `countKeyCardItr` (querier.h:356-363) and `getCard` with a position (/repo/src/trident/kb/querier.cpp:216-274).
The cardinality of an iterator is a parameter (C16 is about the tables): `card idx s p o` is `getCardinality` of the iterator that `getIterator` returns, and `cardD idx s p o` is it after `ignoreSecondColumn`.
`total` is `getCard` without a position.
-/
namespace Trident.Edges

/-- querier.cpp:238-256: the index whose first column is counted. -/
def countIndex (s p : Int) (pos : Nat) : Nat :=
  if s ≥ 0 then (if pos = 2 then 3 else 0)
  else if p ≥ 0 then (if pos = 0 then 5 else 2)
  else if pos = 0 then 4 else 1

/-- querier.cpp:216-274 `getCard(s, p, o, pos)`; `none` is `throw 10`, or that there is no iterator.  Simplified: the call of `hasNext` before `getCardinality` on the same iterator does not change it. -/
def getCardPos (get : Nat → Int → Int → Int → QRes) (card cardD : Nat → Int → Int → Int → Nat) (s p o : Int) (pos : Nat) : Option Nat :=
  if s < 0 ∧ p < 0 ∧ o < 0 then none
  else
    match get (getIndex s p o) s p o with
    | .itr ob =>
      if (ob.I.hasNext ob.s).1 then
        let unbound := (if s < 0 then 1 else 0) + (if p < 0 then 1 else 0) + (if o < 0 then 1 else 0)
        if unbound = 0 then some 1
        else if unbound = 1 then some (card (getIndex s p o) s p o)
        else some (cardD (countIndex s p pos) s p o)
      else some 0
    | _ => none

/-- `ConstKeyCardItr(..).hasNext() ? 1 : 0` (querier.cpp:57-68). -/
def constCount (total : Int → Int → Int → Nat) (s r d : Int) : Nat := if total s r d > 0 then 1 else 0

/-- querier.h:792-814: `cnt_grp_s` (position 0), `cnt_grp_r` (1) and `cnt_grp_d` (2). -/
def cntGrp1 (get : Nat → Int → Int → Int → QRes) (card cardD : Nat → Int → Int → Int → Nat) (total : Int → Int → Int → Nat) (x : Pos) (s r d : Int) : Option Nat :=
  match x with
  | .s => if s ≥ 0 then some (constCount total s r d) else getCardPos get card cardD s r d 0
  | .p => if r ≥ 0 then some (constCount total s r d) else getCardPos get card cardD s r d 1
  | .o => if d ≥ 0 then some (constCount total s r d) else getCardPos get card cardD s r d 2

/-- querier.h:816-882: `cnt_grp_sr` (`spo`), `cnt_grp_sd` (`sop`), `cnt_grp_rs` (`pso`), `cnt_grp_rd` (`pos`), `cnt_grp_ds` (`osp`) and `cnt_grp_dr` (`ops`). -/
def cntGrp2 (get : Nat → Int → Int → Int → QRes) (total : Int → Int → Int → Nat) (fuel : Nat) (old : Old) (g : Bool × ((Int × Int) × Nat)) (n : Order) (s r d : Int) : Option Nat :=
  let both : Bool := match n with
    | .spo | .pso => decide (s ≥ 0 ∧ r ≥ 0)
    | .sop | .osp => decide (s ≥ 0 ∧ d ≥ 0)
    | .pos | .ops => decide (r ≥ 0 ∧ d ≥ 0)
  if both then some (constCount total s r d)
  else (grp2 get fuel old g n s r d).map fun k => (drain k.I fuel k.s).length

end Trident.Edges
