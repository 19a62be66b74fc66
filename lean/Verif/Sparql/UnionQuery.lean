import Verif.Sparql.PlanGen
import Verif.Sparql.Union
import Verif.Sparql.UnionProofs
import Verif.Sparql.UnionQuerySpec
/-!
# The plan of a query with UNION

Model of `buildUnion` (/repo/rdf3x/src/cts/PlanGen.cpp:678-835), of `translate_int` and `translate` for a group that consists of one UNION and filters, and of `translateUnion`
(/repo/rdf3x/src/cts/CodeGen.cpp:870-918) with the operator of Sparql/Union.lean.  Alternatives are groups of triple patterns and filters (Sparql/PlanGen.lean).
Joins of a UNION with other parts of the group are not modelled.
-/
namespace Trident.Sparql.PlanGen

/-- The variables of an alternative (`collectVariables`, PlanGen.cpp:678-712). -/
def groupVars (p : List Node × List Filt) : List Nat := p.2.flatMap (·.vars) ++ p.1.flatMap Node.vars

/-- An alternative as a group of its own.  A variable of a pattern is used if it is somewhere in the whole query (`isUnused(*fullQuery, ..)`, PlanGen.cpp:427-502, 543-546); what is
outside of the alternative is in the field `order`: the variables of ORDER BY, of the filters of the group and of the other alternatives. -/
def part (u : UQuery) (i : Nat) : Query where
  nodes := ((u.parts[i]?).getD ([], [])).1
  filters := ((u.parts[i]?).getD ([], [])).2
  projection := u.projection
  order := u.order ++ u.filters.flatMap (·.vars) ++ (u.parts.eraseIdx i).flatMap groupVars

def UQuery.filt (u : UQuery) (j : Nat) : Filt := (u.filters[j]?).getD ⟨[], fun _ => true, fun _ => true⟩

/-- The tree of `Plan::Union` nodes.  A plan refers to the patterns of its alternative, whose number it has here. -/
inductive UTree
  | leaf (p : Nat × Plan)
  | union (l : Nat × Plan) (r : Option UTree)

/-- The loop of `buildUnion` (PlanGen.cpp:770-784): `l` and `r` are the sides of `last`. -/
def chain (l r : Nat × Plan) : List (Nat × Plan) → UTree
  | [] => .union l (some (.leaf r))
  | p :: ps => .union l (some (chain r p ps))

/-- The union operator of `buildUnion` (PlanGen.cpp:759-784).  Without parts, `parts[0]` is undefined. -/
def buildTree : List (Nat × Plan) → Option UTree
  | [] => none
  | [p] => some (.union p none)
  | p :: r :: ps => some (chain p r ps)

/-- The parts that `translateUnion` collects (CodeGen.cpp:873-884).  A leaf is not a union. -/
def UTree.parts : UTree → List (Nat × Plan)
  | .leaf p => [p]
  | .union l none => [l]
  | .union l (some r) => l :: r.parts

/-- The plans of a group with a union: the union, the merge union (whose parts are not needed), and the filters of the group. -/
inductive UPlan
  | union (t : UTree)
  | merge
  | filter (j : Nat) (p : UPlan)

/-- Estimates: costs and cardinality of a union, from the plans whose costs are added (PlanGen.cpp:745-750, 797-809) and the plans whose cardinalities are added. -/
structure UEst (E : Est) where
  sum : List E.C → List E.C → E.C

/-- Planning ends with undefined behaviour (a null pointer is read, or an element after the end of a vector), or there is no plan, or a list of plans. -/
inductive Outcome (α : Type)
  | undefined
  | none
  | plans (l : α)

variable (E : Est) (U : UEst E)

/-- The best plan of a chain (PlanGen.cpp:735-738). -/
def cheapest : List (Ann E) → Option (Ann E)
  | [] => none
  | a :: l => some (l.foldl (fun bp a => if !E.ge a.cost bp.cost then a else bp) a)

/-- `findOrdering` (PlanGen.cpp:722-729) -/
def findOrdering (l : List (Ann E)) (x : Nat) : Option (Ann E) := l.find? fun a => a.ordering == some x

/-- The variables of the union that are also elsewhere (PlanGen.cpp:787-793). -/
def commonVars (u : UQuery) : List Nat :=
  (setOf (u.projection ++ u.filters.flatMap (·.vars))).filter (u.parts.flatMap groupVars).contains

/-- `f` for all elements, if it has a value for all of them. -/
def allOf {α β : Type} (f : α → Option β) : List α → Option (List β)
  | [] => some []
  | a :: l => match f a, allOf f l with
    | some b, some bs => some (b :: bs)
    | _, _ => none

/-- The merge union (PlanGen.cpp:794-832): there is one common variable, and each alternative has a plan with that ordering.  Then `solutions[1]` is read. -/
def mergeUnion (u : UQuery) (solutions : List (List (Ann E))) (best : List (Ann E)) : Outcome (List (E.C × UPlan)) :=
  match commonVars u with
  | [x] => match allOf (findOrdering E · x) solutions with
    | some ps => if solutions.length < 2 then .undefined else .plans [(U.sum (ps.map (·.cost)) (best.map (·.cost)), .merge)]
    | none => .plans []
  | _ => .plans []

/-- `buildUnion` (PlanGen.cpp:726-835): the plans of the problem.  An alternative without plan gives a null pointer, which is read. -/
def buildUnion (u : UQuery) : Outcome (List (E.C × UPlan)) :=
  match allOf (fun i => (translateInt E (part u i)).bind fun l => (cheapest E l).map fun b => (l, b)) (List.range u.parts.length) with
  | none => .undefined
  | some sols => match buildTree ((List.range u.parts.length).zip (sols.map (·.2.plan))) with
    | none => .undefined
    | some t => match mergeUnion E U u (sols.map (·.1)) (sols.map (·.2)) with
      | .plans l => .plans ((U.sum (sols.map (·.2.cost)) (sols.map (·.2.cost)), .union t) :: l)
      | _ => .undefined

/-- The remaining filters (PlanGen.cpp:1239-1265): all filters of the group, since `findFilters` finds only those of alternatives. -/
def addGroupFilters (u : UQuery) (p : UPlan) : UPlan := (List.range u.filters.length).foldl (fun r j => .filter j r) p

/-- `translate_int` (PlanGen.cpp:1230-1265): a filter has no successor in the chain. -/
def translateUnionInt (u : UQuery) : Outcome (List (E.C × UPlan)) :=
  match buildUnion E U u with
  | .plans (a :: l) => if u.filters.isEmpty then .plans (a :: l) else .plans [(a.1, addGroupFilters u a.2)]
  | _ => .undefined

/-- `translate` (PlanGen.cpp:1452-1470). -/
def translateUnion (u : UQuery) : Outcome UPlan :=
  match translateUnionInt E U u with
  | .plans (a :: l) => .plans (l.foldl (fun best a => if E.better a.1 best.1 then a else best) a).2
  | .plans [] => .none
  | .none => .none
  | .undefined => .undefined

/-! ## Operators -/

/-- The variables with registers (`bindings`) after `translateUnion` (CodeGen.cpp:892-897) and `translateFilter` (CodeGen.cpp:733-736, 776-779). -/
def ucols (u : UQuery) (proj : List Nat) : UPlan → List Nat
  | .union t => setOf (t.parts.flatMap fun a => cols (part u a.1) proj a.2)
  | .merge => []
  | .filter j p => (ucols u (proj ++ (u.filt j).vars) p).filter fun x => !((u.filt j).vars.contains x && !proj.contains x)

/-- The registers of a part: each variable that it returns has one, and the rows are in these registers. -/
def Holds (up : Union.Part) (names : List Nat) (rows : List Row) : Prop :=
  up.binds.map (·.1) = names ∧ up.rows.map (fun r => (r.1, up.binds.map fun b => r.2 b.2)) = rows

/-- The parts are executed, and their rows are in registers. -/
inductive PartsOn (S : Query → Kind → Ord → Bool → Nat → List Nat → List Row → Prop) (u : UQuery) (proj : List Nat) : List (Nat × Plan) → List Union.Part → Prop
  | nil : PartsOn S u proj [] []
  | cons {a up rows l ups} : ExecOn (S (part u a.1)) (part u a.1) proj a.2 rows → Holds up (cols (part u a.1) proj a.2) rows → PartsOn S u proj l ups →
      PartsOn S u proj (a :: l) (up :: ups)

/-- The rows of a plan.  Different alternatives have different registers (`allocateRegisters`, CodeGen.cpp:1077-1139, numbers them from pattern to pattern), and `R` are the contents of all registers
at the beginning.  Merge unions are not executed here. -/
inductive UExecOn (S : Query → Kind → Ord → Bool → Nat → List Nat → List Row → Prop) (u : UQuery) : List Nat → UPlan → List Row → Prop
  | union {proj t ups} (R : Union.Regs) : PartsOn S u proj t.parts ups → Union.Separate ups → UExecOn S u proj (.union t) (Union.rows ups (ucols u proj (.union t)) R)
  | filter {proj j p rows} : UExecOn S u (proj ++ (u.filt j).vars) p rows →
      (∀ r ∈ rows, (u.filt j).ok (fun x => if (ucols u (proj ++ (u.filt j).vars) p).contains x then some (look (ucols u (proj ++ (u.filt j).vars) p) r.2 x) else none) = true) →
      UExecOn S u proj (.filter j p) (pick (ucols u (proj ++ (u.filt j).vars) p) (ucols u proj (.filter j p))
        (rows.filter fun r => (u.filt j).holds fun x => if (ucols u (proj ++ (u.filt j).vars) p).contains x then some (look (ucols u (proj ++ (u.filt j).vars) p) r.2 x) else none))

/-- What is printed (`translateIntern`, CodeGen.cpp:1161-1208). -/
def UAnswersOn (S : Query → Kind → Ord → Bool → Nat → List Nat → List Row → Prop) (u : UQuery) (p : UPlan) (out : List (Nat × List (Option Nat))) : Prop :=
  ∃ rows, UExecOn S u (setOf (u.projection ++ u.order)) p rows ∧
    out = rows.map fun r => (r.1, u.projection.map fun x =>
      if (ucols u (setOf (u.projection ++ u.order)) p).contains x then some (look (ucols u (setOf (u.projection ++ u.order)) p) r.2 x) else none)

/-- The same with scans that return the rows of a list of triples. -/
abbrev UAnswers (db : List Triple) (u : UQuery) := UAnswersOn (ScanRows db) u

end Trident.Sparql.PlanGen
