import Verif.Sparql.Select
import Verif.Sparql.Parser
/-!
# From conditions of a query to operators

`encodeFilter` and `binds` (rdf3x/src/cts/SemanticAnalysis.cpp) turn the conditions of the parser into conditions with ids, and each conjunct becomes an operator.
-/
namespace Trident.Sparql.Parse

open Lex
open Select (Expr Lib Cache Dict)

mutual
/-- `binds` (SemanticAnalysis.cpp:134-180), without subqueries and BIND.  The variables of VALUES are not looked at. -/
def binds (x : Nat) : Group → Bool
  | .mk ps os us ms _ _ => (ps.any fun t => t.1 == .var x || t.2.1 == .var x || t.2.2 == .var x) || bindsAny x os || bindsAny x ms || bindsUnions x us
def bindsAny (x : Nat) : List Group → Bool
  | [] => false
  | g :: l => binds x g || bindsAny x l
def bindsUnions (x : Nat) : List (List Group) → Bool
  | [] => false
  | u :: l => bindsAny x u || bindsUnions x l
end

/-- The operators with one argument (SemanticAnalysis.cpp:373-377, 433-450).  Not modelled: signs, `lang` and casts. -/
def encodeUn : UnOp → Option (Expr → Expr)
  | .not => some .not
  | .str => some .str
  | .datatype => some .datatype
  | .isIri => some .isIRI
  | .isBlank => some .isBlank
  | .isLiteral => some .isLiteral
  | _ => none

/-- The operators with two arguments (SemanticAnalysis.cpp:348-371, 437, 445, 461).  Not modelled: arithmetic and `langMatches`. -/
def encodeBin : BinOp → Option (Expr → Expr → Expr)
  | .or => some .or
  | .and => some .and
  | .eq => some .eq
  | .ne => some .ne
  | .lt => some .lt
  | .le => some .le
  | .gt => some .gt
  | .ge => some .ge
  | .contains => some .contains
  | .sameTerm => some .sameTerm
  | _ => none

/-- `encodeFilter` for a condition (SemanticAnalysis.cpp:343-485).  A variable that the group does not bind is `Null`, a constant that is not stored has no id.
`bound` of a variable that is not bound is false: its id is `~0u` (QueryGraph.cpp:56, CodeGen.cpp:546-550).  Nothing is returned for what is not modelled. -/
def encodeCond (get : GetNumber) (g : Group) : Cond → Option Expr
  | .var x => some (if binds x g then .var x else .null)
  | .iri v => some (.iri ((encode get (.iri v)).map (·.1)) v)
  | .lit v sub => some (.lit ((encode get (.lit v sub)).map (·.1)) v)
  | .un op a => (encodeUn op).bind fun f => (encodeCond get g a).map f
  | .bin op a b => (encodeBin op).bind fun f => (encodeCond get g a).bind fun a' => (encodeCond get g b).map (f a')
  | .bound x => if binds x g then some (.bound x) else none
  | .isIn a args => (encodeCond get g a).bind fun a' => (encodeCond get g args).map (.isIn a')
  | .nil => some .nil
  | .arg a rest => (encodeCond get g a).bind fun a' => (encodeCond get g rest).map (.arg a')
  | _ => none

/-- `encodeFilter` for a FILTER (SemanticAnalysis.cpp:487-503): the conjuncts are filters of their own. -/
def encodeFilters (get : GetNumber) (g : Group) : Cond → Option (List Expr)
  | .bin .and a b => (encodeFilters get g a).bind fun l => (encodeFilters get g b).map (l ++ ·)
  | c => (encodeCond get g c).map fun e => [e]

/-- The operators of the filters, one upon the other, for one row: `special` filters are of the class `Filter`, the others of the class `Selection`
(CodeGen.cpp:721-776).  The cache is shared. -/
def passesAll {F : Type} (P : Lib F) (dict : Dict) (R : Nat → Nat) : List Expr → Cache F → Except Select.Err (Bool × Cache F)
  | [], c => .ok (true, c)
  | e :: es, c =>
    match Select.special e with
    | some (x, values, exclude) => if Select.passes values exclude (R x) then passesAll P dict R es c else .ok (false, c)
    | none => (Select.check P dict R e c).bind fun p => if p.1 then passesAll P dict R es p.2 else .ok (false, p.2)

/-- All rows of the input, one after the other. -/
def runFilters {F : Type} (P : Lib F) (dict : Dict) (regs : Tup → Nat → Nat) (es : List Expr) : List Row → Cache F → Except Select.Err (List Row)
  | [], _ => .ok []
  | r :: rows, c => (passesAll P dict (regs r.2) es c).bind fun p => (runFilters P dict regs es rows p.2).map fun rest => if p.1 then r :: rest else rest

end Trident.Sparql.Parse
