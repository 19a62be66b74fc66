/-!
# Constants that are not stored

`transformSubquery` (rdf3x/src/cts/SemanticAnalysis.cpp:580-690) replaces the constants of a group graph pattern by ids and drops the parts with constants that
are not stored.
-/
namespace Trident.Sparql.Analysis

/-- An element of a triple pattern. -/
inductive PElem (C : Type)
  | var (x : Nat)
  | const (c : C)

/-- A group (`SPARQLParser::PatternGroup` with terms, `QueryGraph::SubQuery` with ids): triple patterns, VALUES with their variables and rows, OPTIONAL, UNION,
NOT EXISTS and MINUS parts.  Other filters, BIND and subqueries are not modelled. -/
inductive Grp (C : Type)
  | mk (patterns : List (PElem C × PElem C × PElem C)) (values : List (List Nat × List (List C))) (optional : List (Grp C)) (unions : List (List (Grp C)))
    (notExists minuses : List (Grp C))

variable {T I : Type}

/-- `encode` (SemanticAnalysis.cpp:69-132); `enc` looks up a term. -/
def encElem (enc : T → Option I) : PElem T → Option (PElem I)
  | .var x => some (.var x)
  | .const c => (enc c).map .const

/-- SemanticAnalysis.cpp:588-600 -/
def encPattern (enc : T → Option I) (p : PElem T × PElem T × PElem T) : Option (PElem I × PElem I × PElem I) :=
  (encElem enc p.1).bind fun s => (encElem enc p.2.1).bind fun q => (encElem enc p.2.2).map fun o => (s, q, o)

/-- All of them, or nothing if there is none for one. -/
def all {α β : Type} (f : α → Option β) : List α → Option (List β)
  | [] => some []
  | a :: l => (f a).bind fun b => (all f l).map (b :: ·)

/-- SemanticAnalysis.cpp:603-614: the value is unknown, so nothing is returned.  The rows of the values follow each other in the code. -/
def encValues (enc : T → Option I) (v : List Nat × List (List T)) : Option (List Nat × List (List I)) := (all (all enc) v.2).map (v.1, ·)

mutual
/-- `transformSubquery` (SemanticAnalysis.cpp:580-690), and `encodeNotExistsFilter` (SemanticAnalysis.cpp:692-712) for a pattern.  Nothing is returned for
`return false`. -/
def transform (enc : T → Option I) : Grp T → Option (Grp I)
  | .mk ps vs os us ns ms =>
    (all (encPattern enc) ps).bind fun ps' => (all (encValues enc) vs).bind fun vs' => (transformAll enc ns).bind fun ns' => (transformUnions enc us).map fun us' =>
      .mk ps' vs' (transformSome enc os) us' ns' (transformSome enc ms)
/-- The filters: each must be encoded. -/
def transformAll (enc : T → Option I) : List (Grp T) → Option (List (Grp I))
  | [] => some []
  | g :: l => (transform enc g).bind fun g' => (transformAll enc l).map (g' :: ·)
/-- Parts that are known to be empty are skipped. -/
def transformSome (enc : T → Option I) : List (Grp T) → List (Grp I)
  | [] => []
  | g :: l => match transform enc g with
    | some g' => g' :: transformSome enc l
    | none => transformSome enc l
/-- A union without alternatives is known to be empty. -/
def transformUnions (enc : T → Option I) : List (List (Grp T)) → Option (List (List (Grp I)))
  | [] => some []
  | u :: l => match transformSome enc u with
    | [] => none
    | a :: r => (transformUnions enc l).map ((a :: r) :: ·)
end

end Trident.Sparql.Analysis
