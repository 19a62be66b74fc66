import Verif.Sparql.FilterSpec
import Verif.Sparql.ParserSpec
/-!
# What a query asks

`SQuery` is a SELECT query as a user writes it, `toks` are its tokens, and `answers` are its answers over a list of triples of RDF terms.
-/
namespace Trident.Sparql.Parse.Spec

open Lex Parse
open Select (Lib)

/-! ## Answers -/

/-- A triple pattern. -/
abbrev STriple := SElem × SElem × SElem

/-- The triple patterns of `; p o` and `, o`. -/
def moreOf (s : SElem) : SElem → List (Option SElem × SElem) → List STriple
  | _, [] => []
  | _, (some p, o) :: l => (s, p, o) :: moreOf s p l
  | p, (none, o) :: l => (s, p, o) :: moreOf s p l

/-- The triple patterns of a group. -/
def Pat.triples : Pat → List STriple
  | .block s p o more _ rest => (s, p, o) :: (moreOf s p more ++ rest.triples)
  | .nested g rest => g.triples ++ rest.triples
  | .filter _ _ _ rest => rest.triples
  | _ => []

/-- The conditions of a group. -/
def Pat.conds : Pat → List SCond
  | .block _ _ _ _ _ rest => rest.conds
  | .nested g rest => g.conds ++ rest.conds
  | .filter c _ _ rest => c :: rest.conds
  | _ => []

/-- There are only triple patterns and conditions. -/
def Pat.Flat : Pat → Prop
  | .nil => True
  | .block _ _ _ _ _ rest => rest.Flat
  | .nested g rest => g.Flat ∧ rest.Flat
  | .filter _ _ _ rest => rest.Flat
  | _ => False

/-- A solution: the terms of variables. -/
abbrev Sol := Text → Option Term

/-- The constant that is written in a pattern. -/
def SElem.constant (pre : List (Text × Text)) (e : SElem) : Option Term := denotes (e.meaning pre fun _ => 0)

/-- The element matches the term: a constant only itself, a variable the term that it has, or any term if it has none. -/
def SElem.matches (pre : List (Text × Text)) (e : SElem) (t : Term) (σ : Sol) : Option Sol :=
  match e with
  | .var x =>
    match σ x with
    | some u => if u = t then some σ else none
    | none => some fun y => if y = x then some t else σ y
  | e => if e.constant pre = some t then some σ else none

/-- The pattern matches the triple. -/
def matchTriple (pre : List (Text × Text)) (p : STriple) (t : Term × Term × Term) (σ : Sol) : Option Sol :=
  (p.1.matches pre t.1 σ).bind fun σ => (p.2.1.matches pre t.2.1 σ).bind fun σ => p.2.2.matches pre t.2.2 σ

/-- The solutions of patterns that extend `σ`: one for each choice of triples that match. -/
def solutions (pre : List (Text × Text)) (graph : List (Term × Term × Term)) : List STriple → Sol → List Sol
  | [], σ => [σ]
  | p :: ps, σ => graph.flatMap fun t =>
    match matchTriple pre p t σ with
    | none => []
    | some σ' => solutions pre graph ps σ'

/-- The terms of the columns, for each solution for which the conditions are true. -/
def answers {F : Type} (P : Lib F) (pre : List (Text × Text)) (graph : List (Term × Term × Term)) (p : Pat) (columns : List Text) : List (List (Option Term)) :=
  ((solutions pre graph p.triples fun _ => none).filter fun σ => p.conds.all fun c => c.truth P pre σ == some true).map fun σ => columns.map σ

/-! ## Queries -/

/-- `SELECT * ...` or `SELECT ?x ?y ...` -/
inductive Columns
  | star
  | names (l : List Text)

/-- A query. -/
structure SQuery where
  prefixes : List (Text × Text)
  distinct : Bool
  columns : Columns
  pat : Pat
  limit : Option Nat
  offset : Nat

/-- How the words of a query are written.  WHERE can be left out; otherwise it is written in small or in capital letters. -/
structure QueryWords where
  prefixes : List Text
  select : Text
  distinct : Text
  where_ : Option Text
  limit : Text
  offset : Text
  group : Spelling
  hprefixes : ∀ w ∈ prefixes, w.map lower = [112, 114, 101, 102, 105, 120]
  hselect : select.map lower = [115, 101, 108, 101, 99, 116]
  hdistinct : distinct.map lower = [100, 105, 115, 116, 105, 110, 99, 116]
  hwhere : ∀ w ∈ where_, w = [119, 104, 101, 114, 101] ∨ w = [87, 72, 69, 82, 69]
  hlimit : limit.map lower = [108, 105, 109, 105, 116]
  hoffset : offset.map lower = [111, 102, 102, 115, 101, 116]

def Columns.toks : Columns → List Tok
  | .star => [⟨.mul, [42]⟩]
  | .names l => l.map (Tok.mk .variable)

/-- How LIMIT and OFFSET are written: in each order, or left out.  The limit is greater than 0, both are less than 2^31. -/
inductive SliceToks (W : QueryWords) : List Tok → Option Nat → Nat → Prop
  | none : SliceToks W [] none 0
  | limit {l : Text} {n : Nat} : naturalOf l = some (n : Int) → 0 < n → n < 2 ^ 31 → SliceToks W [ident W.limit, ⟨.integer, l⟩] (some n) 0
  | offset {o : Text} {m : Nat} : naturalOf o = some (m : Int) → m < 2 ^ 31 → SliceToks W [ident W.offset, ⟨.integer, o⟩] none m
  | limitOffset {l o : Text} {n m : Nat} : naturalOf l = some (n : Int) → 0 < n → n < 2 ^ 31 → naturalOf o = some (m : Int) → m < 2 ^ 31 →
      SliceToks W [ident W.limit, ⟨.integer, l⟩, ident W.offset, ⟨.integer, o⟩] (some n) m
  | offsetLimit {l o : Text} {n m : Nat} : naturalOf l = some (n : Int) → 0 < n → n < 2 ^ 31 → naturalOf o = some (m : Int) → m < 2 ^ 31 →
      SliceToks W [ident W.offset, ⟨.integer, o⟩, ident W.limit, ⟨.integer, l⟩] (some n) m

/-- A key of ORDER BY: `?x`, `ASC(?x)` or `DESC(?x)`. -/
inductive SKey
  | plain (x : Text)
  | asc (x : Text)
  | desc (x : Text)

/-- The variable. -/
def SKey.name : SKey → Text
  | .plain x | .asc x | .desc x => x

/-- The order is descending. -/
def SKey.descending : SKey → Bool
  | .desc _ => true
  | _ => false

/-- How the words of ORDER BY are written. -/
structure OrderWords where
  order : Text
  by_ : Text
  asc : Text
  desc : Text
  horder : order.map lower = [111, 114, 100, 101, 114]
  hby : by_.map lower = [98, 121]
  hasc : asc.map lower = [97, 115, 99]
  hdesc : desc.map lower = [100, 101, 115, 99]

def SKey.toks (O : OrderWords) : SKey → List Tok
  | .plain x => [⟨.variable, x⟩]
  | .asc x => [ident O.asc, lparen, ⟨.variable, x⟩, rparen]
  | .desc x => [ident O.desc, lparen, ⟨.variable, x⟩, rparen]

/-- The tokens of ORDER BY, or none without keys. -/
def orderToks (O : OrderWords) : List SKey → List Tok
  | [] => []
  | k :: ks => ident O.order :: ident O.by_ :: (k :: ks).flatMap (SKey.toks O)

/-- The tokens of a query, where `slice` are those of LIMIT and OFFSET, after those of ORDER BY. -/
def SQuery.toks (W : QueryWords) (q : SQuery) (slice : List Tok) : List Tok :=
  prefixToks W.prefixes q.prefixes ++ ident W.select :: ((if q.distinct then [ident W.distinct] else []) ++ (q.columns.toks ++
    ((W.where_.toList.map ident) ++ lcurly :: (q.pat.toks W.group ++ rcurly :: slice))))

/-- The order of the names of columns: that of their bytes. -/
def textLt : Text → Text → Prop
  | _, [] => False
  | [], _ :: _ => True
  | a :: s, b :: t => a < b ∨ (a = b ∧ textLt s t)

/-- The columns of the answers: for `*` all variables of the group, in the order of their names. -/
def SQuery.Shows (q : SQuery) (columns : List Text) : Prop :=
  match q.columns with
  | .names l => columns = l
  | .star => columns.Pairwise textLt ∧ ∀ x, x ∈ columns ↔ x ∈ q.pat.vars

/-! ## The queries that are treated -/

/-- A variable or a constant. -/
def SCond.Operand : SCond → Prop
  | .elem _ | .int _ | .dec _ | .bool _ => True
  | _ => False

/-- The arguments of IN. -/
def SCond.Arguments : SCond → Prop
  | .nil => True
  | .arg a rest => a.Operand ∧ rest.Arguments
  | _ => False

/-- `||`, `&&`, `!`, comparisons, `sameTerm`, `isIRI`, `isLiteral`, `bound` and `IN` of variables and constants. -/
def SCond.Treated : SCond → Prop
  | .bin op a b =>
    match op with
    | .or | .and => a.Treated ∧ b.Treated
    | .eq | .ne | .sameTerm | .lt | .gt | .le | .ge => a.Operand ∧ b.Operand
    | _ => False
  | .un op a =>
    match op with
    | .not => a.Treated
    | .isIri | .isLiteral => a.Operand
    | _ => False
  | .bound _ => True
  | .isIn a args => a.Operand ∧ args.Arguments
  | _ => False

/-- The parts of a condition that are connected with `&&`. -/
def SCond.conjuncts : SCond → List SCond
  | .bin .and a b => a.conjuncts ++ b.conjuncts
  | c => [c]

/-- A value that the variable has in a triple that matches a pattern. -/
def SeenIn (pre : List (Text × Text)) (graph : List (Term × Term × Term)) (ps : List STriple) (x : Text) (t : Term) : Prop :=
  ∃ p ∈ ps, ∃ d ∈ graph, ∃ σ, matchTriple pre p d (fun _ => none) = some σ ∧ σ x = some t

/-- The variables of a triple pattern. -/
def tripleVars (p : STriple) : List Text := p.1.vars ++ (p.2.1.vars ++ p.2.2.vars)

/-- The query shows the variable. -/
def Columns.Has : Columns → Text → Prop
  | .star, _ => True
  | .names l, x => x ∈ l

/-- The variable `x` of the triple pattern number `i` is shown, or is in a condition or in another triple pattern. -/
def SQuery.Elsewhere (q : SQuery) (i : Nat) (x : Text) : Prop :=
  q.columns.Has x ∨ (∃ c ∈ q.pat.conds, x ∈ c.vars) ∨ ∃ j u, j ≠ i ∧ q.pat.triples[j]? = some u ∧ x ∈ tripleVars u

/-- No triple pattern with a constant has two variables that are nowhere else. -/
def SQuery.Tied (q : SQuery) : Prop :=
  ∀ i t, q.pat.triples[i]? = some t → (∃ e ∈ [t.1, t.2.1, t.2.2], e.vars = []) → ∀ x ∈ tripleVars t, ∀ y ∈ tripleVars t, x ≠ y → q.Elsewhere i x ∨ q.Elsewhere i y

end Trident.Sparql.Parse.Spec
