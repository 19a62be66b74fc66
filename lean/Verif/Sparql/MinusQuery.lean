import Verif.Sparql.PlanGen
import Verif.Sparql.Algebra
import Verif.Sparql.UnionQuery
import Verif.Sparql.MinusQuerySpec
/-!
# The plan of a query with MINUS

Model of `translate_int` and `translate` (/repo/rdf3x/src/cts/PlanGen.cpp:895-909, 1230-1277, 1452-1470) for a group of triple patterns, filters and MINUS, and of `translateMinus`
(/repo/rdf3x/src/cts/CodeGen.cpp:817-867) with the operator of Sparql/Algebra.lean.  The groups after MINUS have triple patterns and filters (Sparql/PlanGen.lean).
-/
namespace Trident.Sparql.PlanGen

/-- The group without MINUS: `isUnused` does not look at `query.minuses` (PlanGen.cpp:427-464). -/
def MQuery.main (m : MQuery) : Query := ⟨m.nodes, m.filters, m.projection, m.order⟩

/-- The group after the MINUS number `k`. -/
def MQuery.group (m : MQuery) (k : Nat) : List Node × List Filt := (m.minuses[k]?).getD ([], [])

/-- `!isUnused(*fullQuery, node, val)` for a pattern after MINUS (PlanGen.cpp:427-502, 543-546): the whole query is looked at, in which the groups after MINUS are left out, also the one with the pattern. -/
def outside (m : MQuery) (x : Nat) : Bool :=
  m.projection.contains x || m.order.contains x || m.filters.any (fun f => f.vars.contains x) || m.nodes.any fun n => n.vars.contains x

/-- The group after a MINUS as a query: the variables that are used outside are in the field `order`. -/
def minusPart (m : MQuery) (k : Nat) : Query where
  nodes := (m.group k).1
  filters := (m.group k).2
  projection := m.projection
  order := m.order ++ m.filters.flatMap (·.vars) ++ m.nodes.flatMap Node.vars

variable (E : Est)

/-- The table for a group in which the pattern number `i` has the scans `scans i` (PlanGen.cpp:533-619, 937-947, 1063). -/
def tableOf (scans : Nat → List (Kind × Ord × Bool)) (q : Query) : Nat → List (List (Problem E))
  | 0 => [(List.range q.nodes.length).map fun i => ⟨bit i, (scans i).foldl (fun plans s => buildIndexScan E q i s.1 s.2.1 s.2.2 plans) []⟩]
  | index + 1 => let t := tableOf scans q index; t ++ [level E (joinInfo E q) t (index + 1)]

/-- `translate_int` for such a group (PlanGen.cpp:895-909, 1230-1265). -/
def translateIntOf (scans : Nat → List (Kind × Ord × Bool)) (q : Query) : Option (List (Ann E)) :=
  if q.nodes.length > maxWidth then none
  else match q.nodes with
    | [] => none
    | _ => match ((tableOf E scans q (q.nodes.length - 1)).getLast?).bind (·.head?) with
      | none => none
      | some pr => match pr.plans with
        | [] => some []
        | a :: l => if addRemaining q a.plan = a.plan then some (a :: l) else some [{ a with plan := addRemaining q a.plan }]

/-- `unusedSubject`, `unusedPredicate` and `unusedObject` of a pattern after MINUS. -/
def unusedOutside (m : MQuery) (k i s : Nat) : Bool :=
  match ((minusPart m k).node i).varAt s with
  | some x => !outside m x
  | none => false

/-- The scans of a pattern after MINUS. -/
def minusScans (m : MQuery) (k i : Nat) : List (Kind × Ord × Bool) := scanListOf (unusedOutside m k i 0) (unusedOutside m k i 1) (unusedOutside m k i 2)

/-- `translate_int` of the group after a MINUS (PlanGen.cpp:1269). -/
def translateGroup (m : MQuery) (k : Nat) : Option (List (Ann E)) := translateIntOf E (minusScans m k) (minusPart m k)

/-- Plans with `Plan::Minus`. -/
inductive MPlan
  | main (p : Plan)
  | minus (p : MPlan) (k : Nat) (q : Plan)

/-- The loop over `query.minuses` (PlanGen.cpp:1267-1276).  Both sides are the first plans of their chains.  Without a plan for the group, a null pointer is written to (PlanGen.cpp:1270). -/
def addMinuses (m : MQuery) : List Nat → MPlan → Outcome MPlan
  | [], p => .plans p
  | k :: ks, p => match translateGroup E m k with
    | some (a :: _) => addMinuses m ks (.minus p k a.plan)
    | _ => .undefined

/-- What an entry of the pool has in the fields `costs` and `next`, which are not set for `Plan::Minus` (PlanGen.cpp:1271-1275): zero in a new entry; an entry that was used before and given back
(/repo/rdf3x/include/infra/util/Pool.hpp) has the values it had then, so that the field `next` leads to other plans. -/
structure Stale where
  cost : E.C
  next : List (E.C × MPlan)

/-- `translate` (PlanGen.cpp:1452-1470) with the best plan of the chain. -/
def translateMinus (s : Stale E) (m : MQuery) : Outcome MPlan :=
  match m.minuses with
  | [] => match translate E m.main with
    | some p => .plans (.main p)
    | none => .none
  | _ => match translateInt E m.main with
    | some (a :: _) => match addMinuses E m (List.range m.minuses.length) (.main a.plan) with
      | .plans p => .plans (s.next.foldl (fun best a => if E.better a.1 best.1 then a else best) (s.cost, p)).2
      | .none => .none
      | .undefined => .undefined
    | _ => .none

/-! ## Execution -/

/-- `collectVariables` (CodeGen.cpp:163-227) -/
def MPlan.vars (m : MQuery) : MPlan → List Nat
  | .main p => p.vars m.main
  | .minus p k q => p.vars m ++ q.vars (minusPart m k)

/-- `varsToCheck` (CodeGen.cpp:826-837) -/
def toCheck (m : MQuery) (p : MPlan) (k : Nat) (q : Plan) : List Nat := setOf ((q.vars (minusPart m k)).filter (p.vars m).contains)

/-- The registers in the bindings: those of the main side (CodeGen.cpp:839-848). -/
def mcols (m : MQuery) (proj : List Nat) : MPlan → List Nat
  | .main p => cols m.main proj p
  | .minus p k q => mcols m (proj ++ toCheck m p k q) p

/-- The rows that the operators of a plan return, if each of them can be started (`translateMinus`, CodeGen.cpp:817-867).  Both sides must have a register for each variable that is checked; otherwise
`bindings.find(v)->second` is undefined. -/
inductive MExecOn (S : Query → Kind → Ord → Bool → Nat → List Nat → List Row → Prop) (m : MQuery) : List Nat → MPlan → List Row → Prop
  | main {proj p rows} : ExecOn (S m.main) m.main proj p rows → MExecOn S m proj (.main p) rows
  | minus {proj p k q rows sub out} : MExecOn S m (proj ++ toCheck m p k q) p rows → ExecOn (S (minusPart m k)) (minusPart m k) (toCheck m p k q) q sub →
      Bound (toCheck m p k q) (mcols m (proj ++ toCheck m p k q) p) (cols (minusPart m k) (toCheck m p k q) q) →
      Algebra.minus ((toCheck m p k q).map (mcols m (proj ++ toCheck m p k q) p).idxOf) ((toCheck m p k q).map (cols (minusPart m k) (toCheck m p k q) q).idxOf) rows sub = some out →
      MExecOn S m proj (.minus p k q) out

/-- What is printed (`translateIntern`, CodeGen.cpp:1161-1208). -/
def MAnswersOn (S : Query → Kind → Ord → Bool → Nat → List Nat → List Row → Prop) (m : MQuery) (p : MPlan) (out : List (Nat × List (Option Nat))) : Prop :=
  ∃ rows, MExecOn S m (setOf (m.projection ++ m.order)) p rows ∧
    out = rows.map fun r => (r.1, m.projection.map fun x =>
      if (mcols m (setOf (m.projection ++ m.order)) p).contains x then some (look (mcols m (setOf (m.projection ++ m.order)) p) r.2 x) else none)

/-- The same with scans that return the rows of a list of triples. -/
abbrev MAnswers (db : List Triple) (m : MQuery) := MAnswersOn (ScanRows db) m

end Trident.Sparql.PlanGen
