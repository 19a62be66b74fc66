import Verif.Sparql.Lexer
/-!
# The parser of the elements of patterns

`SPARQLParser::parsePatternElement` and `parseValues` (rdf3x/src/cts/SPARQLParser.cpp), over the tokens of the lexer.  Not modelled, and an error of its own:
blank nodes with properties.
-/
namespace Trident.Sparql.Parse

open Lex

/-- `ParserException`, what is not modelled, another exception, and the end of the steps of a recursion (which is not reached). -/
inductive Err
  | syntax
  | notModelled
  | exception
  | fuel
  deriving DecidableEq, Repr

/-- `SubType` and `subTypeValue` (SPARQLParser.hpp) -/
inductive Sub
  | none
  | lang (t : Text)
  | type (t : Text)
  deriving DecidableEq, Repr

/-- `Element` (SPARQLParser.hpp:33-50) -/
inductive Elem
  | var (id : Nat)
  | iri (v : Text)
  | lit (v : Text) (sub : Sub)
  deriving DecidableEq, Repr

/-- `Pattern` -/
abbrev Triple := Elem × Elem × Elem

/-- The state: the tokens that `getNext` will return, `namedVariables` and `variableCount`. -/
structure St where
  toks : List Tok
  names : List (Text × Nat)
  count : Nat
  deriving DecidableEq

/-- `getNext`.  At the end it returns the end again; its text, which the code takes from the token before, is empty in the model. -/
def pop (s : St) : Tok × St :=
  match s.toks with
  | [] => (⟨.eof, []⟩, s)
  | t :: r => (t, { s with toks := r })

/-- `count` and `[]` of a map. -/
def find {α : Type} (l : List (Text × α)) (k : Text) : Option α := (l.find? fun p => p.1 == k).map (·.2)

/-- `nameVariable` (SPARQLParser.cpp:141-153) -/
def nameVariable (s : St) (name : Text) : Nat × St :=
  match find s.names name with
  | some i => (i, s)
  | none => (s.count, { s with names := s.names ++ [(name, s.count)], count := s.count + 1 })

/-- `prefix:suffix` after the identifier `p` (SPARQLParser.cpp:430-447 and 1315-1332): the IRI. -/
def qname (pre : List (Text × Text)) (p : Text) (s : St) : Except Err (Text × St) :=
  let (t, s1) := pop s
  let r : Text × Tok × St :=
    if t.kind = .colon then (p, t, s1)
    else if t.raw = [45] then let (u, s2) := pop s1; let (c, s3) := pop s2; (p ++ 45 :: u.raw, c, s3)
    else let (c, s2) := pop s1; (p, c, s2)
  if r.2.1.kind ≠ .colon then .error .syntax
  else match find pre r.1 with
    | none => .error .syntax
    | some iri =>
      let (l, s4) := pop r.2.2
      if l.kind ≠ .identifier then .error .syntax else .ok (iri ++ unescape l.raw, s4)

/-- The value of a string in `parseRDFLiteral` (SPARQLParser.cpp:407-419): escapes are removed, and once more if a backslash is left. -/
def literalValue (raw : Text) : Text :=
  let v := unescape raw
  if v.contains 92 then unescape v else v

/-- `parseRDFLiteral` after the string (SPARQLParser.cpp:421-462). -/
def rdfLiteral (pre : List (Text × Text)) (raw : Text) (s : St) : Except Err (Elem × St) :=
  let v := literalValue raw
  let (t, s1) := pop s
  if t.kind = .at then
    let (l, s2) := pop s1
    if l.kind = .identifier then .ok (.lit v (.lang l.raw), s2) else .error .syntax
  else if t.kind = .type then
    let (d, s2) := pop s1
    if d.kind = .identifier then (qname pre d.raw s2).map fun p => (.lit v (.type p.1), p.2)
    else if d.kind = .iri then .ok (.lit v (.type (unescape d.raw)), s2) else .error .syntax
  else .ok (.lit v .none, s)

/-- http://www.w3.org/1999/02/22-rdf-syntax-ns#type -/
def rdfType : Text := "http://www.w3.org/1999/02/22-rdf-syntax-ns#type".toList.map Char.toNat

/-- `parsePatternElement` (SPARQLParser.cpp:1271-1338).  `loc` is `localVars`: the blank nodes of the triples up to the next point. -/
def element (pre : List (Text × Text)) (loc : List (Text × Nat)) (s : St) : Except Err (Elem × List (Text × Nat) × St) :=
  let (t, s1) := pop s
  match t.kind with
  | .variable => let (i, s2) := nameVariable s1 t.raw; .ok (.var i, loc, s2)
  | .string => (rdfLiteral pre t.raw s1).map fun p => (p.1, loc, p.2)
  | .iri => .ok (.iri (unescape t.raw), loc, s1)
  | .anon => .ok (.var s1.count, loc, { s1 with count := s1.count + 1 })
  | .lbracket => .error .notModelled
  | .underscore =>
    let (c, s2) := pop s1
    if c.kind ≠ .colon then .error .syntax
    else
      let (l, s3) := pop s2
      if l.kind ≠ .identifier then .error .syntax
      else match find loc l.raw with
        | some i => .ok (.var i, loc, s3)
        | none => .ok (.var s3.count, loc ++ [(l.raw, s3.count)], { s3 with count := s3.count + 1 })
  | .colon =>
    let (l, s2) := pop s1
    if l.kind ≠ .identifier then .error .syntax else .ok (.iri l.raw, loc, s2)
  | .identifier =>
    if t.raw = [97] then .ok (.iri rdfType, loc, s1) else (qname pre t.raw s1).map fun p => (.iri p.1, loc, p.2)
  | _ => .error .syntax

/-- The variables of VALUES up to the closing parenthesis (SPARQLParser.cpp:1521-1528); the fuel is the number of tokens. -/
def valuesVars : Nat → St → Except Err (List Nat × St)
  | 0, _ => .error .fuel
  | n + 1, s =>
    let (t, s1) := pop s
    if t.kind = .rparen then .ok ([], s1)
    else if t.kind ≠ .variable then .error .syntax
    else
      let (i, s2) := nameVariable s1 t.raw
      (valuesVars n s2).map fun p => (i :: p.1, p.2)

/-- `k` elements one after the other (SPARQLParser.cpp:1537-1541). -/
def elements (pre : List (Text × Text)) : Nat → List (Text × Nat) → St → Except Err (List Elem × List (Text × Nat) × St)
  | 0, loc, s => .ok ([], loc, s)
  | k + 1, loc, s =>
    (element pre loc s).bind fun p => (elements pre k p.2.1 p.2.2).map fun q => (p.1 :: q.1, q.2)

/-- The values up to the closing brace (SPARQLParser.cpp:1531-1555); `k` is the number of variables. -/
def valuesRows (pre : List (Text × Text)) (k : Nat) : Nat → List (Text × Nat) → St → Except Err (List Elem × St)
  | 0, _, _ => .error .fuel
  | n + 1, loc, s =>
    let (t, s1) := pop s
    if t.kind = .rcurly then .ok ([], s1)
    else if t.kind = .lparen then
      (elements pre k loc s1).bind fun p =>
        let (c, s2) := pop p.2.2
        if c.kind ≠ .rparen then .error .syntax
        else (valuesRows pre k n p.2.1 s2).map fun q => (p.1 ++ q.1, q.2)
    else (element pre loc s).bind fun p => (valuesRows pre k n p.2.1 p.2.2).map fun q => (p.1 :: q.1, q.2)

/-- `parseValues` (SPARQLParser.cpp:1508-1559) -/
def values (pre : List (Text × Text)) (s : St) : Except Err ((List Nat × List Elem) × St) :=
  let (t, s1) := pop s
  let vars : Except Err (List Nat × St) :=
    if t.kind = .variable then let (i, s2) := nameVariable s1 t.raw; .ok ([i], s2)
    else if t.kind ≠ .lparen then .error .syntax else valuesVars (s.toks.length + 1) s1
  vars.bind fun p =>
    let (c, s3) := pop p.2
    if c.kind ≠ .lcurly then .error .syntax
    else (valuesRows pre p.1.length (s.toks.length + 1) [] s3).map fun q => ((p.1, q.1), q.2)

/-- A point is skipped (SPARQLParser.cpp:1374-1377 and 1430-1433). -/
def skipDot (s : St) : St := if (pop s).1.kind = .dot then (pop s).2 else s

def kSelect : Text := [115, 101, 108, 101, 99, 116]
def kOptional : Text := [111, 112, 116, 105, 111, 110, 97, 108]
def kUnion : Text := [117, 110, 105, 111, 110]
def kMinus : Text := [109, 105, 110, 117, 115]
def kFilter : Text := [102, 105, 108, 116, 101, 114]
def kBind : Text := [98, 105, 110, 100]
def kValues : Text := [118, 97, 108, 117, 101, 115]
def kWhere : Text := [119, 104, 101, 114, 101]

end Trident.Sparql.Parse
