import Verif.Sparql.HashJoin
import Verif.Sparql.Domain
/-!
# Plans of scans and hash joins that share domains

/repo/rdf3x/src/cts/CodeGen.cpp:1072-1131 and 1210-1242: all registers of one variable, in all parts of a query, have the same domain.
A hash join drops rows of its left side that are not in the domains, and restricts the domains to what it saw on its left side, before the right side starts
(/repo/rdf3x/src/rts/HashJoin.cpp:28-62, 117-119, 200-205).  Scans skip what is not in the domains (see Verif/Sparql/Hint.lean).
-/
namespace Trident.Sparql.Plan
open Domain

/-- The domain of each variable. -/
abbrev Doms := Nat → Dom

/-- A scan with the variables of its columns, or a hash join.  `lc` and `rc` are the columns of the inputs that are passed on, first the one of the join
variable (`leftValue`, `leftTail` and `rightValue`, `rightTail`, CodeGen.cpp:391-401). -/
inductive Plan
  | scan (vars : List Nat) (rows : List Row)
  | join (l : Plan) (lc : List Nat) (r : Plan) (rc : List Nat)

/-- The columns `c` of a row. -/
def pick (c : List Nat) (t : Tup) : Tup := c.map (col t)

def pickRow (c : List Nat) (r : Row) : Row := (r.1, pick c r.2)

/-- The variables of the columns. -/
def Plan.vars : Plan → List Nat
  | .scan v _ => v
  | .join l lc r rc => pick lc l.vars ++ pick rc r.vars

/-- The values of the columns are in the domains of their variables; `shared` tells which variables have one (CodeGen.cpp:1222-1224: those with at least two
registers).  HashJoin.cpp:51-61. -/
def qualifies (shared : Nat → Bool) (D : Doms) : List Nat → Tup → Bool
  | x :: vars, v :: t => (!shared x || couldQualify (D x) v) && qualifies shared D vars t
  | _, _ => true

/-- The values that are added to the observed domain of column `i` (HashJoin.cpp:51-61): the loop over the columns ends at the first one that does not qualify. -/
def seen (shared : Nat → Bool) (D : Doms) (vars : List Nat) (i : Nat) (rows : List Row) : List Nat :=
  (rows.filter fun r => qualifies shared D (vars.take (i + 1)) (r.2.take (i + 1))).map fun r => col r.2 i

/-- `domain->restrictTo(observedDomains[index])` (HashJoin.cpp:118-119) for the columns from `i` on. -/
def restrictAll (shared : Nat → Bool) (D0 : Doms) (vars : List Nat) (rows : List Row) : List Nat → Doms → Doms
  | [], D => D
  | i :: is, D =>
    let x := col vars i
    restrictAll shared D0 vars rows is
      (if shared x then fun y => if y = x then restrictTo (D y) (observed (seen shared D0 vars i rows)) else D y else D)

/-- The domains after a hash table was built. -/
def restricted (shared : Nat → Bool) (D : Doms) (vars : List Nat) (rows : List Row) : Doms :=
  restrictAll shared D vars rows (List.range vars.length) D

/-- Columns with the same variable have the same value: the selections for further join variables (CodeGen.cpp:288-314). -/
def consistent : List Nat → Tup → Bool
  | x :: vars, v :: t => ((vars.zip t).all fun p => p.1 != x || p.2 == v) && consistent vars t
  | _, _ => true

/-- A plan returns rows and changes the domains.  A scan returns some of its rows, at least all that are in the domains.  A hash join reads its left side to
the end, restricts the domains, and then reads its right side. -/
inductive Run (shared : Nat → Bool) : Plan → Doms → List Row → Doms → Prop
  | scan {vars rows D} (keep : Row → Bool) : (∀ r ∈ rows, qualifies shared D vars r.2 = true → keep r = true) →
      Run shared (.scan vars rows) D (rows.filter keep) D
  | join {l lc r rc D lo D1 ro D3 out} (wl wr reg0 : Nat) : Run shared l D lo D1 →
      Run shared r (restricted shared D1 (pick lc l.vars) (lo.map (pickRow lc))) ro D3 →
      Hash.hashJoin (qualifies shared D1 (pick lc l.vars)) false false wl wr reg0 (lo.map (pickRow lc)) (ro.map (pickRow rc)) = some out →
      Run shared (.join l lc r rc) D (out.filter fun x => consistent (pick lc l.vars ++ pick rc r.vars) x.2) D3

/-- The run in which scans return all rows, to compute examples. -/
def exec (shared : Nat → Bool) : Plan → Doms → Option (List Row × Doms)
  | .scan _ rows, D => some (rows, D)
  | .join l lc r rc, D =>
    (exec shared l D).bind fun a =>
    (exec shared r (restricted shared a.2 (pick lc l.vars) (a.1.map (pickRow lc)))).bind fun b =>
    (Hash.hashJoin (qualifies shared a.2 (pick lc l.vars)) false false (lc.length - 1) (rc.length - 1) 0 (a.1.map (pickRow lc)) (b.1.map (pickRow rc))).map
      fun out => (out.filter fun x => consistent (pick lc l.vars ++ pick rc r.vars) x.2, b.2)

/-- At the start of a query no domain is restricted (/repo/rdf3x/src/rts/Runtime.cpp, `allocateDomainDescriptions`). -/
def start : Doms := fun _ => potential

end Trident.Sparql.Plan
