import Verif.Sparql.FilterText
import Verif.Sparql.PlanGen
import Verif.Sparql.Limit
import Verif.Sparql.Distinct
import Verif.Sparql.OrderBy
/-!
# From the text of a query to its output

`SPARQLParser::parse` (rdf3x/src/cts/SPARQLParser.cpp), `SemanticAnalysis::transform` (rdf3x/src/cts/SemanticAnalysis.cpp), `PlanGen::translate`, `CodeGen::translate` and the
printer of results, one after the other (src/trident/sparql/sparql.cpp).  Not modelled, and an error of its own: CONSTRUCT, expressions in the projection, GROUP BY, HAVING
and groups with more than triple patterns and FILTER.
-/
namespace Trident.Sparql.Parse

open Lex
open Select (Expr Lib Cache Dict)
open Analysis (PElem)

/-! ## Parsing -/

/-- `ProjectionModifier` (rdf3x/include/cts/parser/SPARQLParser.hpp) -/
inductive Modifier
  | none | distinct | reduced | count | duplicates
  deriving DecidableEq, Repr

/-- What `Order` of the parser has apart from the direction (SPARQLParser.hpp): an expression, a variable, or the number of occurrences. -/
inductive PKey
  | expr (c : Cond)
  | var (x : Nat)
  | count
  deriving DecidableEq

/-- The members of the parser that describe a query.  The limit is `none` without LIMIT.  In `order`, `true` is a descending order. -/
structure Parsed where
  modifier : Modifier
  projection : List Nat
  group : Group
  limit : Option Nat
  offset : Nat
  order : List (PKey × Bool)

def kConstruct : Text := [99, 111, 110, 115, 116, 114, 117, 99, 116]
def kDistinct : Text := [100, 105, 115, 116, 105, 110, 99, 116]
def kReduced : Text := [114, 101, 100, 117, 99, 101, 100]
def kCount : Text := [99, 111, 117, 110, 116]
def kDuplicates : Text := [100, 117, 112, 108, 105, 99, 97, 116, 101, 115]
def kFrom : Text := [102, 114, 111, 109]
def kGroup : Text := [103, 114, 111, 117, 112]
def kHaving : Text := [104, 97, 118, 105, 110, 103]
def kOrder : Text := [111, 114, 100, 101, 114]
def kLimit : Text := [108, 105, 109, 105, 116]
def kOffset : Text := [111, 102, 102, 115, 101, 116]
def kBy : Text := [98, 121]
def kAsc : Text := [97, 115, 99]
def kDesc : Text := [100, 101, 115, 99]

/-- `WHERE`, in capital letters. -/
def capsWhere : Text := [87, 72, 69, 82, 69]

/-- The next token is this word. -/
def nextWord (s : St) (k : Text) : Bool := decide ((pop s).1.kind = .identifier) && isKeyword (pop s).1 k

/-- The modifier after SELECT (SPARQLParser.cpp:307-318). -/
def modifier (s : St) : Modifier × St :=
  if nextWord s kDistinct then (.distinct, (pop s).2)
  else if nextWord s kReduced then (.reduced, (pop s).2)
  else if nextWord s kCount then (.count, (pop s).2)
  else if nextWord s kDuplicates then (.duplicates, (pop s).2)
  else (.none, s)

/-- The loop over the projection (SPARQLParser.cpp:320-379); `first` is the variable of that name.  What is not a variable, `*` or the word `where` is an expression. -/
def projection (pre : List (Text × Text)) : Nat → Bool → St → Except Err (List Nat × St)
  | 0, _, _ => .error .fuel
  | n + 1, first, s =>
    let t := (pop s).1
    if t.kind = .variable then
      let (i, s2) := nameVariable (pop s).2 t.raw
      (projection pre n false s2).map fun p => (i :: p.1, p.2)
    else if t.kind = .mul then projection pre n false (pop s).2
    else if t.kind = .lparen then .error .notModelled
    else if t.kind = .identifier ∧ t.raw ≠ kWhere ∧ t.raw ≠ capsWhere then
      (expression pre (primary pre (s.toks.length + 1)) s).bind fun _ => .error .notModelled
    else if first then .error .syntax
    else .ok ([], s)

/-- The loop of `parseOrderBy` (SPARQLParser.cpp:1696-1735). -/
def orderKeys (pre : List (Text × Text)) : Nat → St → Except Err (List (PKey × Bool) × St)
  | 0, _ => .error .fuel
  | n + 1, s =>
    let t := (pop s).1
    if t.kind = .identifier then
      if isKeyword t kLimit || isKeyword t kOffset then .ok ([], s)
      else if isKeyword t kAsc || isKeyword t kDesc then
        (bracketed (expression pre (primary pre (s.toks.length + 1))) (pop s).2).bind fun p => (orderKeys pre n p.2).map fun l => ((.expr p.1, isKeyword t kDesc) :: l.1, l.2)
      else if isKeyword t kCount then (orderKeys pre n (pop s).2).map fun l => ((.count, false) :: l.1, l.2)
      else (constraint pre s).bind fun p => (orderKeys pre n p.2).map fun l => ((.expr p.1, false) :: l.1, l.2)
    else if t.kind = .variable then
      let (i, s2) := nameVariable (pop s).2 t.raw
      (orderKeys pre n s2).map fun l => ((.var i, false) :: l.1, l.2)
    else if t.kind = .eof then .ok ([], s)
    else .error .syntax

/-- `parseOrderBy` (SPARQLParser.cpp:1685-1736) -/
def orderBy (pre : List (Text × Text)) (s : St) : Except Err (List (PKey × Bool) × St) :=
  if nextWord s kOrder then
    if nextWord (pop s).2 kBy then orderKeys pre (s.toks.length + 1) (pop (pop s).2).2 else .error .syntax
  else .ok ([], s)

/-- `atoi` of digits.  Not modelled: numbers that are not an `int`. -/
def number (t : Text) : Except Err Nat :=
  let n := t.foldl (fun n c => 10 * n + (c - 48)) 0
  if n < 2 ^ 31 then .ok n else .error .notModelled

/-- `parseLimitOffset` (SPARQLParser.cpp:1738-1775).  `hadOffset` is never set. -/
def limitOffset : Nat → Option Nat → Nat → St → Except Err (Option Nat × Nat × St)
  | 0, _, _, _ => .error .fuel
  | n + 1, limit, offset, s =>
    let s1 := (pop s).2
    if nextWord s kLimit then
      if limit.isSome then .error .syntax
      else if (pop s1).1.kind ≠ .integer then .error .syntax
      else (number (pop s1).1.raw).bind fun k => if k = 0 then .error .syntax else limitOffset n (some k) offset (pop s1).2
    else if nextWord s kOffset then
      if (pop s1).1.kind ≠ .integer then .error .syntax
      else (number (pop s1).1.raw).bind fun k => limitOffset n limit k (pop s1).2
    else .ok (limit, offset, s)

/-- The order of `std::string`. -/
def textLe : Text → Text → Bool
  | [], _ => true
  | _ :: _, [] => false
  | a :: s, b :: t => if a < b then true else if b < a then false else textLe s t

/-- All named variables, in the order of the map of their names (SPARQLParser.cpp:1814-1818). -/
def allVariables (s : St) : List Nat := (s.names.mergeSort fun a b => textLe a.1 b.1).map (·.2)

/-- After the prefixes (SPARQLParser.cpp:1783-1819): the query and `namedVariables`. -/
def parseSelect (pre : List (Text × Text)) (s : St) : Except Err (Parsed × List (Text × Nat)) :=
  if nextWord s kConstruct then .error .notModelled
  else if !nextWord s kSelect then .error .syntax
  else
    let m := modifier (pop s).2
    (projection pre (s.toks.length + 1) true m.2).bind fun p =>
      if nextWord p.2 kFrom then .error .syntax
      else (parseWhere pre p.2).bind fun g =>
        if nextWord g.2 kGroup || nextWord g.2 kHaving then .error .notModelled
        else (orderBy pre g.2).bind fun o => (limitOffset (o.2.toks.length + 1) none 0 o.2).bind fun l =>
          if (pop l.2.2).1.kind ≠ .eof then .error .syntax
          else .ok (⟨m.1, if p.1 = [] then allVariables l.2.2 else p.1, g.1, l.1, l.2.1, o.1⟩, l.2.2.names)

/-- `parse` (SPARQLParser.cpp:1777-1819), with the names of the variables. -/
def readNamed (text : Text) : Except Err (Parsed × List (Text × Nat)) := (readPrologue text).bind fun p => parseSelect p.1 p.2

/-- `parse`, without the names. -/
def readQuery (text : Text) : Except Err Parsed := (readNamed text).map (·.1)

/-- `getVariableName` (SPARQLParser.cpp:1817-1824); the map is sorted by the names, but a number has only one. -/
def nameOf (names : List (Text × Nat)) (i : Nat) : Text := ((names.find? fun p => p.2 == i).map (·.1)).getD []

/-! ## Analysis -/

/-- An element of a node of the query graph (SemanticAnalysis.cpp:588-600). -/
def encodeElem (get : GetNumber) (e : Elem) : Option (PElem Nat) := (encode get e).map fun p => if p.2 then .const p.1 else .var p.1

/-- A triple pattern (SemanticAnalysis.cpp:588-600). -/
def encodeTriple (get : GetNumber) (t : Triple) : Option PlanGen.Node :=
  (encodeElem get t.1).bind fun a => (encodeElem get t.2.1).bind fun b => (encodeElem get t.2.2).map fun c => (a, b, c)

/-- All triple patterns (SemanticAnalysis.cpp:587-602). -/
def encodeTriples (get : GetNumber) : List Triple → Option (List PlanGen.Node)
  | [] => some []
  | t :: l => (encodeTriple get t).bind fun n => (encodeTriples get l).map (n :: ·)

/-- All FILTERs (SemanticAnalysis.cpp:632-641). -/
def encodeAll (get : GetNumber) (g : Group) : List Cond → Option (List Expr)
  | [] => some []
  | c :: l => (encodeFilters get g c).bind fun es => (encodeAll get g l).map (es ++ ·)

/-- The variables of a condition (`getVariables` and `Filter::isApplicable`, rdf3x/src/cts/QueryGraph.cpp:138-160). -/
def exprVars : Expr → List Nat
  | .var x => [x]
  | .bound x => [x]
  | .or a b | .and a b | .eq a b | .ne a b | .lt a b | .le a b | .gt a b | .ge a b | .sameTerm a b | .contains a b | .isIn a b | .arg a b => exprVars a ++ exprVars b
  | .not a | .str a | .datatype a | .isIRI a | .isBlank a | .isLiteral a => exprVars a
  | .lit _ _ | .iri _ _ | .null | .nil => []

/-- One filter for one row (`translateFilter`, CodeGen.cpp:721-776): of the class `Filter` or of the class `Selection`.  The cache of numbers is empty; it makes no difference
(`C79_check_partial`). -/
def evalFilter {F : Type} (P : Lib F) (dict : Dict) (e : Expr) (R : Nat → Nat) : Except Select.Err Bool :=
  match Select.special e with
  | some (x, values, exclude) => .ok (Select.passes values exclude (R x))
  | none => (Select.check P dict R e fun _ => none).map (·.1)

/-- The registers of the variables of a condition. -/
def registers (e : Expr) (g : Nat → Option Nat) (x : Nat) : Nat := if (exprVars e).contains x then (g x).getD 0 else 0

/-- A filter of a plan.  It cannot be evaluated if a variable has no register (a null pointer) or if `evalFilter` fails. -/
def filterOf {F : Type} (P : Lib F) (dict : Dict) (e : Expr) : PlanGen.Filt where
  vars := exprVars e
  holds g := match evalFilter P dict e (registers e g) with
    | .ok b => b
    | .error _ => false
  ok g := (exprVars e).all (fun x => (g x).isSome) && match evalFilter P dict e (registers e g) with
    | .ok _ => true
    | .error _ => false

/-- The keys to sort by (SemanticAnalysis.cpp:773-810), `none` for the number of occurrences.  Variables that the group does not bind are left out; an expression that is not a
variable is an exception. -/
def sortKeys (g : Group) : List (PKey × Bool) → Except Err (List (Option Nat × Bool))
  | [] => .ok []
  | (.count, d) :: l => (sortKeys g l).map ((none, d) :: ·)
  | (.var x, d) :: l | (.expr (.var x), d) :: l => (sortKeys g l).map fun ks => if binds x g then (some x, d) :: ks else ks
  | (.expr _, _) :: _ => .error .exception

/-- `transform` (SemanticAnalysis.cpp:715-...): the query graph, or nothing if it is known to be empty. -/
def transform {F : Type} (P : Lib F) (get : GetNumber) (dict : Dict) (p : Parsed) : Except Err (Option PlanGen.Query) :=
  match p.group with
  | .mk ps [] [] [] [] fs =>
    match encodeTriples get ps with
    | none => .ok none
    | some nodes =>
      match encodeAll get p.group fs with
      | none => .error .notModelled
      | some es => (sortKeys p.group p.order).map fun ks => some ⟨nodes, es.map (filterOf P dict), p.projection, ks.filterMap (·.1)⟩
  | _ => .error .notModelled

/-! ## Output -/

/-- The registers that are printed for a row (CodeGen.cpp:1196-1202); a register that is not used has the value `UINT64_MAX` (rdf3x/src/rts/Runtime.cpp, `Register::reset`). -/
def printed (q : PlanGen.Query) (cols : List Nat) (t : Tup) : Tup :=
  q.projection.map fun x => if cols.contains x then PlanGen.look cols t x else 2 ^ 64 - 1

/-- What the scans of a query return. -/
abbrev Scans := PlanGen.Query → PlanGen.Kind → PlanGen.Ord → Bool → Nat → List Nat → List Row → Prop

/-- The lines of the output, as ids: `CodeGen::translate` (CodeGen.cpp:1244-1278) and `ResultsPrinter::first` for text, for a plan `p` of `PlanGen::translate`
(PlanGen.cpp:1452-1487).  With DISTINCT the rows are grouped over all registers of the projection (CodeGen.cpp:438-451).  Not modelled: REDUCED, COUNT and DUPLICATES. -/
inductive Lines (S : Scans) (q : PlanGen.Query) (p : PlanGen.Plan) (limit : Option Nat) (offset : Nat) : Modifier → List Tup → Prop
  | all {rows} : PlanGen.ExecOn (S q) q (PlanGen.setOf (q.projection ++ q.order)) p rows →
      Lines S q p limit offset .none (Limit.print (Limit.limitOf limit) (rows.map fun r => (r.1, printed q (PlanGen.cols q (PlanGen.setOf (q.projection ++ q.order)) p) r.2)) offset 0)
  | distinct {rows} (enum : Nat → List Nat) : (∀ n, (enum n).Perm (List.range n)) → PlanGen.ExecOn (S q) q (PlanGen.setOf (q.projection ++ q.order)) p rows →
      Lines S q p limit offset .distinct (Limit.output .reduce (Limit.limitOf limit) offset
        ((Distinct.groupify enum rows).map fun r => (r.1, printed q (PlanGen.cols q (PlanGen.setOf (q.projection ++ q.order)) p) r.2)))

/-- The output of a query without ORDER BY: a line for each answer, with the texts of the dictionary (src/trident/sparql/sparql.cpp); `printCells` is what is
written for them.  The estimates `E` of the optimizer are given; `S` are the scans of
the store. -/
inductive RunOn {F : Type} (E : PlanGen.Est) (P : Lib F) (get : GetNumber) (dict : Dict) (S : Scans) (text : Text) : List (List (Option Text)) → Prop
  | empty {p : Parsed} : readQuery text = .ok p → transform P get dict p = .ok none → RunOn E P get dict S text []
  | lines {p : Parsed} {q : PlanGen.Query} {plan : PlanGen.Plan} {out : List Tup} : readQuery text = .ok p → sortKeys p.group p.order = .ok [] → transform P get dict p = .ok (some q) →
      PlanGen.translate E q = some plan → Lines S q plan p.limit p.offset p.modifier out → RunOn E P get dict S text (out.map fun t => t.map dict)

/-- The output of a query over the triples `db`, with their ids, if the scans return what `ScanRows` says. -/
abbrev Run {F : Type} (E : PlanGen.Est) (P : Lib F) (get : GetNumber) (dict : Dict) (db : List PlanGen.Triple) (text : Text) (out : List (List (Option Text))) : Prop :=
  RunOn E P get dict (PlanGen.ScanRows db) text out

/-- The registers that are sorted: those of the projection and of the keys (CodeGen.cpp:1175-1188). -/
def sorted (q : PlanGen.Query) : List Nat := PlanGen.setOf (q.projection ++ q.order)

/-- The lines of the output with ORDER BY, as ids (CodeGen.cpp:1189-1207).  If a variable of the projection has no register, then the operator has a null pointer; with a row,
anything can be returned.  `V` is what the comparison depends on. -/
inductive SortedLines (V : OrderBy.Env) (S : Scans) (q : PlanGen.Query) (keys : List (Option Nat × Bool)) (p : PlanGen.Plan) (limit : Option Nat) (offset : Nat) : Modifier → List Tup → Prop
  | all {rows out} : PlanGen.ExecOn (S q) q (sorted q) p rows → (rows = [] ∨ ∀ x ∈ sorted q, x ∈ PlanGen.cols q (sorted q) p) →
      OrderBy.Returns V (OrderBy.keys (sorted q) keys) (rows.map fun r => (r.1, (sorted q).map (PlanGen.look (PlanGen.cols q (sorted q) p) r.2))) out →
      SortedLines V S q keys p limit offset .none (Limit.print (Limit.limitOf limit) (out.map fun r => (r.1, printed q (sorted q) r.2)) offset 0)
  | distinct {rows out} (enum : Nat → List Nat) : (∀ n, (enum n).Perm (List.range n)) → PlanGen.ExecOn (S q) q (sorted q) p rows → (rows = [] ∨ ∀ x ∈ sorted q, x ∈ PlanGen.cols q (sorted q) p) →
      OrderBy.Returns V (OrderBy.keys (sorted q) keys) ((Distinct.groupify enum rows).map fun r => (r.1, (sorted q).map (PlanGen.look (PlanGen.cols q (sorted q) p) r.2))) out →
      SortedLines V S q keys p limit offset .distinct (Limit.output .reduce (Limit.limitOf limit) offset (out.map fun r => (r.1, printed q (sorted q) r.2)))
  | undefined {rows m out} : PlanGen.ExecOn (S q) q (sorted q) p rows → rows ≠ [] → (∃ x ∈ sorted q, x ∉ PlanGen.cols q (sorted q) p) → SortedLines V S q keys p limit offset m out

/-- The output of a query with ORDER BY. -/
inductive RunSorted {F : Type} (E : PlanGen.Est) (P : Lib F) (get : GetNumber) (V : OrderBy.Env) (S : Scans) (text : Text) : List (List (Option Text)) → Prop
  | empty {p : Parsed} : readQuery text = .ok p → transform P get V.text p = .ok none → RunSorted E P get V S text []
  | lines {p : Parsed} {q : PlanGen.Query} {keys : List (Option Nat × Bool)} {plan : PlanGen.Plan} {out : List Tup} : readQuery text = .ok p → sortKeys p.group p.order = .ok keys →
      keys ≠ [] → transform P get V.text p = .ok (some q) → PlanGen.translate E q = some plan → SortedLines V S q keys plan p.limit p.offset p.modifier out →
      RunSorted E P get V S text (out.map fun t => t.map V.text)

end Trident.Sparql.Parse
