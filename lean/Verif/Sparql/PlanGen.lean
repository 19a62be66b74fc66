import Verif.Sparql.PlanSpec
import Verif.Sparql.HashJoin
import Verif.Sparql.MergeJoin
import Verif.Sparql.Algebra
/-!
# The plan of a query

Model of /repo/rdf3x/src/cts/PlanGen.cpp (`translate`, `translate_int` and what they use) for groups of triple patterns and filters, of the edges between patterns
(/repo/rdf3x/src/cts/QueryGraph.cpp:182-274), and of /repo/rdf3x/src/cts/CodeGen.cpp for the plans that are made of them.

UNION is in UnionQuery.lean, MINUS in MinusQuery.lean.  VALUES, OPTIONAL, BIND, subqueries, NOT EXISTS, GROUP BY and aggregates are not modelled, nor are the domains that the registers of a variable share.
The costs, cardinalities and selectivities are arbitrary.
-/
namespace Trident.Sparql.PlanGen
open Analysis (PElem)

/-! ## Sets of variables -/

/-- `set<unsigned>::insert`: a set is the increasing list of its elements. -/
def insert (x : Nat) : List Nat → List Nat
  | [] => [x]
  | y :: l => if x < y then x :: y :: l else if x = y then y :: l else y :: insert x l

/-- The set of the elements of a list. -/
def setOf (l : List Nat) : List Nat := l.foldr insert []

/-! ## Patterns -/

/-- The element at subject (0), predicate (1) or object (2). -/
def Node.slot (n : Node) : Nat → PElem Nat
  | 0 => n.1
  | 1 => n.2.1
  | _ => n.2.2

/-- The same of a triple. -/
def Triple.slot (t : Triple) : Nat → Nat
  | 0 => t.1
  | 1 => t.2.1
  | _ => t.2.2

/-- The variable at a slot, if there is one. -/
def Node.varAt (n : Node) (s : Nat) : Option Nat :=
  match n.slot s with
  | .var x => some x
  | .const _ => none

/-- The variables of a pattern. -/
def Node.vars (n : Node) : List Nat := [0, 1, 2].filterMap n.varAt

/-- The pattern with a number. -/
def Query.node (q : Query) (i : Nat) : Node := (q.nodes[i]?).getD (.const 0, .const 0, .const 0)

def Query.filt (q : Query) (i : Nat) : Filt := (q.filters[i]?).getD ⟨[], fun _ => true, fun _ => true⟩

/-- `!isUnused(query, node, val)` (PlanGen.cpp:405-414, 427-502): the variable is projected, or is in ORDER BY, in a filter, or in another pattern. -/
def used (q : Query) (i x : Nat) : Bool :=
  q.projection.contains x || q.order.contains x || q.filters.any (fun f => f.vars.contains x) ||
    (List.range q.nodes.length).any fun j => j != i && (q.node j).vars.contains x

/-! ## Plans -/

/-- The orders (`DBLayer::DataOrder`); those without a guarantee (`Order_No_Order_*`) are distinguished by a flag. -/
inductive Ord
  | spo | sop | pso | pos | osp | ops
  deriving DecidableEq, Repr

/-- The slots of an order, as in `IndexScan::create` (/repo/rdf3x/src/rts/IndexScan.cpp:321-376). -/
def Ord.slots : Ord → List Nat
  | .spo => [0, 1, 2]
  | .sop => [0, 2, 1]
  | .pso => [1, 0, 2]
  | .pos => [1, 2, 0]
  | .osp => [2, 0, 1]
  | .ops => [2, 1, 0]

/-- `IndexScan`, `AggregatedIndexScan` and `FullyAggregatedIndexScan`. -/
inductive Kind
  | full | aggr | fully
  deriving DecidableEq, Repr

/-- How many slots a scan has. -/
def Kind.width : Kind → Nat
  | .full => 3
  | .aggr => 2
  | .fully => 1

/-- `Plan` (/repo/rdf3x/include/cts/plangen/Plan.hpp): a scan for a pattern, with the flag of the orders without guarantee; a filter; joins. -/
inductive Plan
  | scan (k : Kind) (o : Ord) (free : Bool) (i : Nat)
  | filter (j : Nat) (p : Plan)
  | nest (l r : Plan)
  | merge (x : Nat) (l r : Plan)
  | hash (l r : Plan)
  | cart (l r : Plan)
  deriving DecidableEq, Repr

/-- The slots that a scan reads: AggregatedIndexScan.cpp and FullyAggregatedIndexScan.cpp use the first two and the first. -/
def scanSlots (k : Kind) (o : Ord) : List Nat := o.slots.take k.width

/-- The ordering of a scan (PlanGen.cpp:281-301, 337-353 and 381-396): the first variable, if the order is guaranteed. -/
def scanOrdering (q : Query) (k : Kind) (o : Ord) (free : Bool) (i : Nat) : Option Nat :=
  if free then none else (scanSlots k o).findSome? (q.node i).varAt

/-! ## Estimates -/

/-- A join of relations (`PlanGen::JoinDescription`); the relations are bits. -/
structure JoinD where
  left : Nat
  right : Nat
  ordering : Nat
  nonneg : Bool

inductive Op
  | merge | hash | nest | cart

/-- What the decisions depend on: costs with cardinalities, how they are compared, and how they are computed. -/
structure Est where
  C : Type
  /-- `a->costs <= b->costs` -/
  le : C → C → Bool
  /-- `a->costs >= b->costs` -/
  ge : C → C → Bool
  /-- The test of `translate` (PlanGen.cpp:1467). -/
  better : C → C → Bool
  scan : Kind → Ord → Bool → Nat → C
  filter : C → C
  join : Op → JoinD → C → C → C
  /-- Whether the selectivity of a join is not negative (PlanGen.cpp:629-640). -/
  nonneg : Nat → Nat → Bool

/-- A plan with its costs and its ordering. -/
structure Ann (E : Est) where
  plan : Plan
  cost : E.C
  ordering : Option Nat

variable (E : Est)

/-! ## Scans -/

/-- `Filter::isApplicable` (QueryGraph.cpp:138-160). -/
def applicable (f : Filt) (vars : List Nat) : Bool := f.vars.all vars.contains

/-- One of the loops of `buildFilters` (PlanGen.cpp:161-185, 186-209). -/
def addFilters (ok : Nat → Bool) (n : Nat) (a : Ann E) : Ann E :=
  (List.range n).foldl (fun a j => if ok j then { plan := .filter j a.plan, cost := E.filter a.cost, ordering := a.ordering } else a) a

/-- `buildFilters` (PlanGen.cpp:150-211). -/
def buildFilters (q : Query) (values : List Nat) (a : Ann E) : Ann E :=
  let n := q.filters.length
  let onOrder j := applicable (q.filt j) a.ordering.toList
  addFilters E (fun j => applicable (q.filt j) values && !onOrder j) n (addFilters E onOrder n a)

/-- The loop of `addPlan` over the plans (PlanGen.cpp:59-101): a plan that ends the loop, plans that are removed, and whether the new plan is added. -/
def dominate (stop drop : Ann E → Bool) : List (Ann E) → List (Ann E) × Bool
  | [] => ([], true)
  | a :: l => if stop a then (a :: l, false) else
    let r := dominate stop drop l
    (if drop a then r.1 else a :: r.1, r.2)

/-- `addPlan` (PlanGen.cpp:55-106). -/
def addPlan (plans : List (Ann E)) (p : Ann E) : List (Ann E) :=
  let r := match p.ordering with
    | some _ => dominate E (fun a => a.ordering == p.ordering && E.le a.cost p.cost)
        (fun a => a.ordering == p.ordering || (a.ordering == none && E.ge a.cost p.cost)) plans
    | none => dominate E (fun a => E.le a.cost p.cost) (fun a => a.ordering == none) plans
  if r.2 then p :: r.1 else r.1

/-- `buildIndexScan`, `buildAggregatedIndexScan`, `buildFullyAggregatedIndexScan` (PlanGen.cpp:267-403).  A constant is the value `UINT64_MAX`, which is no variable. -/
def buildIndexScan (q : Query) (i : Nat) (k : Kind) (o : Ord) (free : Bool) (plans : List (Ann E)) : List (Ann E) :=
  let n := q.node i
  let slots := scanSlots k o
  if k == .aggr && (n.varAt (slots.getD 1 0)).isNone && (n.varAt (slots.getD 0 0)).isSome then plans
  else addPlan E plans (buildFilters E q (slots.filterMap n.varAt) ⟨.scan k o free i, E.scan k o free i, scanOrdering q k o free i⟩)

/-- The variable at a slot is not used elsewhere (PlanGen.cpp:543-546). -/
def unusedAt (q : Query) (i s : Nat) : Bool :=
  match (q.node i).varAt s with
  | some x => !used q i x
  | none => false

/-- The scans of `buildScan` in their order (PlanGen.cpp:552-607), from `unusedSubject`, `unusedPredicate` and `unusedObject`. -/
def scanListOf (us up uo : Bool) : List (Kind × Ord × Bool) :=
  let kind (b : Bool) := if b then Kind.aggr else .full
  if us.toNat + up.toNat + uo.toNat ≥ 2 then
    if !us then [(.fully, .spo, false), (.fully, .spo, true)]
    else if !uo then [(.fully, .osp, false), (.fully, .osp, true)]
    else [(.fully, .pso, false), (.fully, .pso, true)]
  else
    [(kind uo, .pso, false), (kind uo, .pso, true), (kind up, .osp, false), (kind up, .osp, true), (kind up, .sop, false), (kind up, .sop, true),
     (kind us, .pos, false), (kind us, .pos, true), (kind us, .ops, false), (kind us, .ops, true), (kind uo, .spo, false), (kind uo, .spo, true)]

/-- The scans of the pattern number `i` (PlanGen.cpp:543-607). -/
def scanList (q : Query) (i : Nat) : List (Kind × Ord × Bool) := scanListOf (unusedAt q i 0) (unusedAt q i 1) (unusedAt q i 2)

/-- `Problem` -/
structure Problem where
  rel : Nat
  plans : List (Ann E)

/-- `BitSet::set` of one bit (/repo/rdf3x/include/cts/infra/BitSet.hpp:39). -/
def bit (i : Nat) : Nat := 1 <<< i

/-- `buildScan` (PlanGen.cpp:533-619). -/
def buildScan (q : Query) (i : Nat) : Problem E :=
  ⟨bit i, (scanList q i).foldl (fun plans s => buildIndexScan E q i s.1 s.2.1 s.2.2 plans) []⟩

/-! ## Joins -/

/-- The variables that two patterns have in common (QueryGraph.cpp:182-217). -/
def common (a b : Node) : List Nat := (setOf a.vars).filter b.vars.contains

/-- `constructEdges` (QueryGraph.cpp:265-274) and `buildJoinInfo` (PlanGen.cpp:621-653). -/
def joinInfo (q : Query) : List JoinD :=
  (List.range q.nodes.length).flatMap fun i => (List.range q.nodes.length).filterMap fun j =>
    if i < j then (common (q.node i) (q.node j)).head?.map fun x => ⟨bit i, bit j, x, E.nonneg i j⟩ else none

/-- `BitSet::subsetOf` (BitSet.hpp:53) -/
def subset (a b : Nat) : Bool := a &&& b == a

/-- `BitSet::overlapsWith` (BitSet.hpp:55) -/
def overlaps (a b : Nat) : Bool := a &&& b != 0

/-- The plans for two plans (PlanGen.cpp:1133-1186): `first` is the description that was found, `orderings` are `joinOrderings`. -/
def joinPlans (first : JoinD) (orderings : List Nat) (plans : List (Ann E)) (l r : Ann E) : List (Ann E) :=
  let plans := match l.ordering with
    | some x => if r.ordering == some x && orderings.contains x then addPlan E plans ⟨.merge x l.plan r.plan, E.join .merge first l.cost r.cost, some x⟩ else plans
    | none => plans
  if first.nonneg then
    addPlan E (addPlan E plans ⟨.hash l.plan r.plan, E.join .hash first l.cost r.cost, none⟩) ⟨.hash r.plan l.plan, E.join .hash first r.cost l.cost, none⟩
  else addPlan E plans ⟨.nest l.plan r.plan, E.join .nest first l.cost r.cost, l.ordering⟩

/-- All pairs of plans of two problems (PlanGen.cpp:1130-1132). -/
def joinAll (first : JoinD) (orderings : List Nat) (a b : Problem E) (plans : List (Ann E)) : List (Ann E) :=
  a.plans.foldl (fun plans l => b.plans.foldl (fun plans r => joinPlans E first orderings plans l r) plans) plans

/-- The problem of these relations gets more plans; it is made if there is none (PlanGen.cpp:1083-1091). -/
def update (rel : Nat) (f : List (Ann E) → List (Ann E)) : List (Problem E) → Option (List (Problem E))
  | [] => none
  | p :: ps => if p.rel = rel then some (⟨p.rel, f p.plans⟩ :: ps) else (update rel f ps).map (p :: ·)

/-- One pair of problems (PlanGen.cpp:1067-1189). -/
def joinPair (joins : List JoinD) (level : List (Problem E)) (ab : Problem E × Problem E) : List (Problem E) :=
  let a := ab.1
  let b := ab.2
  if overlaps a.rel b.rel then level
  else match joins.dropWhile fun d => !(subset d.left a.rel && subset d.right b.rel) with
    | [] => level
    | d :: ds =>
      if a.plans.isEmpty then level
      else
        let f := joinAll E d ((d :: ds).map (·.ordering)) a b
        match update E (a.rel ||| b.rel) f level with
        | some level => level
        | none => ⟨a.rel ||| b.rel, f []⟩ :: level

/-- The pairs of problems whose numbers of relations have the sum `index + 1` (PlanGen.cpp:1065-1068). -/
def pairs (table : List (List (Problem E))) (index : Nat) : List (Problem E × Problem E) :=
  (List.range index).flatMap fun k => (table.getD k []).flatMap fun a => (table.getD (index - k - 1) []).map fun b => (a, b)

/-- A problem with the products of all plans (PlanGen.cpp:1200-1223).  The description is not used. -/
def product (a b : Problem E) : Problem E :=
  ⟨a.rel ||| b.rel, a.plans.foldl (fun plans l => b.plans.foldl (fun plans r =>
    addPlan E plans ⟨.cart l.plan r.plan, E.join .cart ⟨0, 0, 0, false⟩ l.cost r.cost, none⟩) plans) []⟩

/-- One round of the loop that builds larger join trees (PlanGen.cpp:1063-1228). -/
def level (joins : List JoinD) (table : List (List (Problem E))) (index : Nat) : List (Problem E) :=
  let ps := pairs E table index
  match ps.foldl (joinPair E joins) [] with
  | [] => ((ps.find? fun ab => !overlaps ab.1.rel ab.2.rel).map fun ab => product E ab.1 ab.2).toList
  | p :: l => p :: l

/-- The table after the rounds up to `index` (PlanGen.cpp:937-947, 1063). -/
def table (q : Query) : Nat → List (List (Problem E))
  | 0 => [(List.range q.nodes.length).map (buildScan E q)]
  | index + 1 => let t := table q index; t ++ [level E (joinInfo E q) t (index + 1)]

/-! ## The plan -/

/-- `findFilters` (PlanGen.cpp:851-893) -/
def Plan.filters : Plan → List Nat
  | .scan .. => []
  | .filter j p => j :: p.filters
  | .nest l r => l.filters ++ r.filters
  | .merge _ l r => l.filters ++ r.filters
  | .hash l r => l.filters ++ r.filters
  | .cart l r => l.filters ++ r.filters

/-- `BitSet::maxWidth` (BitSet.hpp:22) -/
def maxWidth : Nat := 64

/-- The remaining filters (PlanGen.cpp:1239-1265). -/
def addRemaining (q : Query) (p : Plan) : Plan :=
  (List.range q.filters.length).foldl (fun r j => if p.filters.contains j then r else .filter j r) p

/-- `translate_int` (PlanGen.cpp:895-909, 1230-1265): the plans in the chain.  A filter that is added at the end has no successor, so only the first plan is left then. -/
def translateInt (q : Query) : Option (List (Ann E)) :=
  if q.nodes.length > maxWidth then none
  else match q.nodes with
    | [] => none
    | _ => match ((table E q (q.nodes.length - 1)).getLast?).bind (·.head?) with
      | none => none
      | some pr => match pr.plans with
        | [] => some []
        | a :: l => if addRemaining q a.plan = a.plan then some (a :: l) else some [{ a with plan := addRemaining q a.plan }]

/-- `translate` (PlanGen.cpp:1452-1470): the best plan of the chain.  The elimination of duplicates (PlanGen.cpp:1472-1484) is not modelled. -/
def translate (q : Query) : Option Plan :=
  match translateInt E q with
  | some (a :: l) => some (l.foldl (fun best a => if E.better a.cost best.cost then a else best) a).plan
  | _ => none

/-! ## Operators -/

/-- `collectVariables` (CodeGen.cpp:162-190) -/
def Plan.vars (q : Query) : Plan → List Nat
  | .scan _ _ _ i => (q.node i).vars
  | .filter _ p => p.vars q
  | .nest l r => l.vars q ++ r.vars q
  | .merge _ l r => l.vars q ++ r.vars q
  | .hash l r => l.vars q ++ r.vars q
  | .cart l r => l.vars q ++ r.vars q

/-- `getJoinVariables` (CodeGen.cpp:252-269) -/
def joinVars (q : Query) (l r : Plan) : List Nat := setOf ((l.vars q).filter (r.vars q).contains)

/-- The variables of the registers that a plan returns (`bindings`), for the projected variables: `resolveScanVariable` (CodeGen.cpp:53-75) and the three translations of
scans (CodeGen.cpp:90-160), `translateFilter` (CodeGen.cpp:733-736, 776-779), `mergeBindings` (CodeGen.cpp:277-286).  A slot that the scan does not read has no register. -/
def cols (q : Query) (proj : List Nat) : Plan → List Nat
  | .scan k o _ i => setOf (((scanSlots k o).filterMap (q.node i).varAt).filter proj.contains)
  | .filter j p => (cols q (proj ++ (q.filt j).vars) p).filter fun x => !((q.filt j).vars.contains x && !proj.contains x)
  | .nest l r => setOf ((cols q (proj ++ joinVars q l r) l ++ cols q (proj ++ joinVars q l r) r).filter proj.contains)
  | .merge _ l r => setOf ((cols q (proj ++ joinVars q l r) l ++ cols q (proj ++ joinVars q l r) r).filter proj.contains)
  | .hash l r => setOf ((cols q (proj ++ joinVars q l r) l ++ cols q (proj ++ joinVars q l r) r).filter proj.contains)
  | .cart l r => setOf ((cols q proj l ++ cols q proj r).filter proj.contains)

/-- The value of a variable in a row with the variables `names`. -/
def look (names : List Nat) (t : Tup) (x : Nat) : Nat := ((names.zip t).lookup x).getD 0

/-- The registers of the variables `cs`. -/
def pick (names cs : List Nat) (rows : List Row) : List Row := rows.map fun r => (r.1, cs.map (look names r.2))

/-- The register of the join variable, and the tail (CodeGen.cpp:356-363 and 391-398). -/
def front (x : Nat) (names : List Nat) : List Nat := x :: names.filter (· != x)

/-- `addAdditionalSelections` (CodeGen.cpp:288-314) for rows with the registers `cl` of the left side and `cr` of the right side. -/
def select (js cl cr : List Nat) (rows : List Row) : List Row :=
  rows.filter fun r => js.all fun x => look cl r.2 x == look cr (r.2.drop cl.length) x

/-- The registers of a join that remain: those of the left side are preferred (`mergeBindings`, CodeGen.cpp:277-286). -/
def output (names cl cr : List Nat) (rows : List Row) : List Row :=
  rows.map fun r => (r.1, names.map fun x => if cl.contains x then look cl r.2 x else look cr (r.2.drop cl.length) x)

/-- The value of the last slot with the variable, of those that the scan reads: its register is the one in `bindings` (CodeGen.cpp:71-72). -/
def slotValue (n : Node) (slots : List Nat) (t : Triple) (x : Nat) : Nat :=
  (([2, 1, 0].filter slots.contains).findSome? fun s => if n.varAt s = some x then some (t.slot s) else none).getD 0

/-- The constants of the slots that a scan reads. -/
def matchesSlots (n : Node) (slots : List Nat) (t : Triple) : Bool :=
  slots.all fun s => match n.slot s with
    | .const k => t.slot s == k
    | .var _ => true

/-- The rows of a scan: each row of the slots it reads as often as there are triples with it, and in the order of the first variable.  See C66 to C68 for how the rows are
found. -/
structure ScanRows (db : List Triple) (q : Query) (k : Kind) (o : Ord) (free : Bool) (i : Nat) (names : List Nat) (rows : List Row) : Prop where
  pos : ∀ r ∈ rows, r.1 ≠ 0
  bag : ∀ t, bag rows t = ((db.filter (matchesSlots (q.node i) (scanSlots k o))).map fun d => names.map (slotValue (q.node i) (scanSlots k o) d)).count t
  sorted : ∀ x ∈ names, scanOrdering q k o free i = some x → rows.Pairwise fun a b => look names a.2 x ≤ look names b.2 x

/-- Both sides have a register for each of the variables; otherwise an operator gets a null pointer (`leftBindings[...]` inserts it). -/
def Bound (js cl cr : List Nat) : Prop := ∀ x ∈ js, x ∈ cl ∧ x ∈ cr

/-- The scan can be started.  A fully aggregated scan without guaranteed order gets no register for a variable (CodeGen.cpp:145-150).  If its first slot is a constant
(`FullyAggregatedIndexScan::ScanPrefix1::first`, /repo/rdf3x/src/rts/FullyAggregatedIndexScan.cpp:250-265), then `TridentScan::first(el, constrained)` throws an exception, because it
supports only scans that are not aggregated (/repo/src/layers/TridentLayer.cpp:1140-1142).  The other scans call functions that support them (IndexScan.cpp:408-634, AggregatedIndexScan.cpp:295-405). -/
def Starts (q : Query) (k : Kind) (o : Ord) (free : Bool) (i : Nat) : Prop :=
  k = .fully → free = false ∧ (scanSlots k o).filterMap (q.node i).varAt ≠ []

/-- The rows that the operators of a plan return (`translatePlan`, CodeGen.cpp:1011-1074), if each of them can be started, with the registers `cols q proj p`.
Scans below a merge join may skip rows (the fields `hl` and `hr` of the environment `e`).  `S k o free i names rows` says that the scan returns the rows. -/
inductive ExecOn (S : Kind → Ord → Bool → Nat → List Nat → List Row → Prop) (q : Query) : List Nat → Plan → List Row → Prop
  | scan {proj k o free i rows} : Starts q k o free i → S k o free i (cols q proj (.scan k o free i)) rows → ExecOn S q proj (.scan k o free i) rows
  /-- `translateFilter` (CodeGen.cpp:721-782): the condition is evaluated for each row. -/
  | filter {proj j p rows} : ExecOn S q (proj ++ (q.filt j).vars) p rows →
      (∀ r ∈ rows, (q.filt j).ok (fun x => if (cols q (proj ++ (q.filt j).vars) p).contains x then some (look (cols q (proj ++ (q.filt j).vars) p) r.2 x) else none) = true) →
      ExecOn S q proj (.filter j p) (pick (cols q (proj ++ (q.filt j).vars) p) (cols q proj (.filter j p))
        (rows.filter fun r => (q.filt j).holds fun x => if (cols q (proj ++ (q.filt j).vars) p).contains x then some (look (cols q (proj ++ (q.filt j).vars) p) r.2 x) else none))
  /-- `translateNestedLoopJoin` (CodeGen.cpp:316-337) -/
  | nest {proj l r lo ro out} : ExecOn S q (proj ++ joinVars q l r) l lo → ExecOn S q (proj ++ joinVars q l r) r ro →
      Bound (joinVars q l r) (cols q (proj ++ joinVars q l r) l) (cols q (proj ++ joinVars q l r) r) → Algebra.NLReturns lo ro out →
      ExecOn S q proj (.nest l r) (output (cols q proj (.nest l r)) (cols q (proj ++ joinVars q l r) l) (cols q (proj ++ joinVars q l r) r)
        (select (joinVars q l r) (cols q (proj ++ joinVars q l r) l) (cols q (proj ++ joinVars q l r) r) out))
  /-- `translateMergeJoin` (CodeGen.cpp:339-372) -/
  | merge {proj x l r lo ro out} (e : Merge.Env) : e.lo = false → e.ro = false →
      ExecOn S q (proj ++ joinVars q l r) l lo → ExecOn S q (proj ++ joinVars q l r) r ro →
      Bound (x :: joinVars q l r) (cols q (proj ++ joinVars q l r) l) (cols q (proj ++ joinVars q l r) r) →
      Merge.Returns e (pick (cols q (proj ++ joinVars q l r) l) (front x (cols q (proj ++ joinVars q l r) l)) lo)
        (pick (cols q (proj ++ joinVars q l r) r) (front x (cols q (proj ++ joinVars q l r) r)) ro) out →
      ExecOn S q proj (.merge x l r) (output (cols q proj (.merge x l r)) (front x (cols q (proj ++ joinVars q l r) l)) (front x (cols q (proj ++ joinVars q l r) r))
        (select ((joinVars q l r).filter (· != x)) (front x (cols q (proj ++ joinVars q l r) l)) (front x (cols q (proj ++ joinVars q l r) r)) out))
  /-- `translateHashJoin` (CodeGen.cpp:374-407): the join variable is the first one. -/
  | hash {proj l r lo ro out x} (wl wr reg0 : Nat) : (joinVars q l r).head? = some x →
      ExecOn S q (proj ++ joinVars q l r) l lo → ExecOn S q (proj ++ joinVars q l r) r ro →
      Bound (joinVars q l r) (cols q (proj ++ joinVars q l r) l) (cols q (proj ++ joinVars q l r) r) →
      Hash.hashJoin (fun _ => true) false false wl wr reg0 (pick (cols q (proj ++ joinVars q l r) l) (front x (cols q (proj ++ joinVars q l r) l)) lo)
        (pick (cols q (proj ++ joinVars q l r) r) (front x (cols q (proj ++ joinVars q l r) r)) ro) = some out →
      ExecOn S q proj (.hash l r) (output (cols q proj (.hash l r)) (front x (cols q (proj ++ joinVars q l r) l)) (front x (cols q (proj ++ joinVars q l r) r))
        (select ((joinVars q l r).filter (· != x)) (front x (cols q (proj ++ joinVars q l r) l)) (front x (cols q (proj ++ joinVars q l r) r)) out))
  /-- `translateCartProd` (CodeGen.cpp:409-436) -/
  | cart {proj l r lo ro} (wl wr : Nat) (regs : Tup) : ExecOn S q proj l lo → ExecOn S q proj r ro →
      ExecOn S q proj (.cart l r) (output (cols q proj (.cart l r)) (cols q proj l) (cols q proj r) (Algebra.cartProd false false wl wr regs lo ro))

/-- The same with scans that return the rows of a list of triples. -/
abbrev Exec (db : List Triple) (q : Query) := ExecOn (ScanRows db q) q

/-- The projection with which a query is translated, and the values that are printed (`translateIntern`, CodeGen.cpp:1161-1208); a variable without register is printed as no value. -/
def AnswersOn (S : Kind → Ord → Bool → Nat → List Nat → List Row → Prop) (q : Query) (p : Plan) (out : List (Nat × List (Option Nat))) : Prop :=
  ∃ rows, ExecOn S q (setOf (q.projection ++ q.order)) p rows ∧
    out = rows.map fun r => (r.1, q.projection.map fun x =>
      if (cols q (setOf (q.projection ++ q.order)) p).contains x then some (look (cols q (setOf (q.projection ++ q.order)) p) r.2 x) else none)

/-- The same with scans that return the rows of a list of triples. -/
abbrev Answers (db : List Triple) (q : Query) := AnswersOn (ScanRows db q) q

end Trident.Sparql.PlanGen
