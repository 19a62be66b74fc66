import Verif.Sparql.ExprParser
/-!
# The parser of group graph patterns

`SPARQLParser::parseGroupGraphPattern` and what it calls (rdf3x/src/cts/SPARQLParser.cpp), over the tokens of the lexer.  Not modelled, and an error of its own:
subqueries, BIND and blank nodes with properties.
-/
namespace Trident.Sparql.Parse

open Lex

/-- `PatternGroup` (SPARQLParser.hpp:109-134) without assignments and subqueries. -/
inductive Group
  | mk (patterns : List Triple) (optional : List Group) (unions : List (List Group)) (minuses : List Group) (values : List (List Nat × List Elem))
    (filters : List Cond)

namespace Group

def empty : Group := mk [] [] [] [] [] []

def addPattern : Group → Triple → Group
  | mk p o u m v f, t => mk (p ++ [t]) o u m v f

def addOptional : Group → Group → Group
  | mk p o u m v f, g => mk p (o ++ [g]) u m v f

def addUnion : Group → List Group → Group
  | mk p o u m v f, gs => mk p o (u ++ [gs]) m v f

def addMinus : Group → Group → Group
  | mk p o u m v f, g => mk p o u (m ++ [g]) v f

def addValues : Group → List Nat × List Elem → Group
  | mk p o u m v f, x => mk p o u m (v ++ [x]) f

def addFilter : Group → Cond → Group
  | mk p o u m v f, c => mk p o u m v (f ++ [c])

/-- A group in braces is merged into the one around it (SPARQLParser.cpp:1459-1466): only these fields. -/
def merge : Group → Group → Group
  | mk p o u m v f, mk p' o' u' _ _ f' => mk (p ++ p') (o ++ o') (u ++ u') m v (f ++ f')

end Group

mutual
/-- The loop of `parseGroupGraphPattern` (SPARQLParser.cpp:1403-1506) up to the closing brace.  The fuel counts tokens. -/
def group (pre : List (Text × Text)) : Nat → Group → St → Except Err (Group × St)
  | 0, _, _ => .error .fuel
  | n + 1, g, s =>
    let t := (pop s).1
    let s1 := (pop s).2
    if isKeyword t kSelect then .error .notModelled
    else if isKeyword t kOptional then
      (group pre n Group.empty (pop s1).2).bind fun p => group pre n (g.addOptional p.1) (skipDot p.2)
    else if t.kind = .lcurly then
      (group pre n Group.empty s1).bind fun p =>
        if (pop p.2).1.kind = .identifier ∧ isKeyword (pop p.2).1 kUnion = true then
          (alternatives pre n [p.1] (pop p.2).2).bind fun q => group pre n (g.addUnion q.1) (skipDot q.2)
        else group pre n (g.merge p.1) (skipDot p.2)
    else if t.kind = .iri ∨ t.kind = .variable ∨ t.kind = .identifier ∨ t.kind = .string ∨ t.kind = .underscore ∨ t.kind = .colon ∨ t.kind = .lbracket
        ∨ t.kind = .anon then
      if t.kind = .identifier ∧ isKeyword t kFilter = true then (parseFilter pre s1).bind fun p => group pre n (g.addFilter p.1) p.2
      else if t.kind = .identifier ∧ isKeyword t kBind = true then .error .notModelled
      else if t.kind = .identifier ∧ isKeyword t kMinus = true then
        if (pop s1).1.kind = .lcurly then
          (group pre n Group.empty (pop s1).2).bind fun p => group pre n (g.addMinus p.1) p.2
        else .error .syntax
      else
        (element pre [] s).bind fun a => (element pre a.2.1 a.2.2).bind fun b => (element pre b.2.1 b.2.2).bind fun c =>
          (tail pre n a.1 b.1 c.2.1 (g.addPattern (a.1, b.1, c.1)) c.2.2).bind fun q => group pre n q.1 q.2
    else if t.kind = .rcurly then .ok (g, s1)
    else .error .syntax

/-- The further alternatives of a UNION (SPARQLParser.cpp:1443-1455) after the word. -/
def alternatives (pre : List (Text × Text)) : Nat → List Group → St → Except Err (List Group × St)
  | 0, _, _ => .error .fuel
  | n + 1, gs, s =>
    if (pop s).1.kind ≠ .lcurly then .error .syntax
    else
      (group pre n Group.empty (pop s).2).bind fun p =>
        if (pop p.2).1.kind = .identifier ∧ isKeyword (pop p.2).1 kUnion = true then alternatives pre n (gs ++ [p.1]) (pop p.2).2
        else .ok (gs ++ [p.1], p.2)

/-- The loop of `parseGraphPattern` after the first triple (SPARQLParser.cpp:1355-1400). -/
def tail (pre : List (Text × Text)) : Nat → Elem → Elem → List (Text × Nat) → Group → St → Except Err (Group × St)
  | 0, _, _, _, _, _ => .error .fuel
  | n + 1, subj, pred, loc, g, s =>
    let t := (pop s).1
    let s1 := (pop s).2
    if t.kind = .semicolon then
      (element pre loc s1).bind fun b => (element pre b.2.1 b.2.2).bind fun c =>
        tail pre n subj b.1 c.2.1 (g.addPattern (subj, b.1, c.1)) c.2.2
    else if t.kind = .comma then
      (element pre loc s1).bind fun c => tail pre n subj pred c.2.1 (g.addPattern (subj, pred, c.1)) c.2.2
    else if t.kind = .dot then .ok (g, s1)
    else if t.kind = .identifier then
      if isKeyword t kOptional then
        (group pre n Group.empty (pop s1).2).bind fun p => tail pre n subj pred loc (g.addOptional p.1) (skipDot p.2)
      else if isKeyword t kFilter then
        (parseFilter pre s1).bind fun p => tail pre n subj pred loc (g.addFilter p.1) p.2
      else if isKeyword t kBind then .error .notModelled
      else if isKeyword t kValues then
        (values pre s1).bind fun p => tail pre n subj pred loc (g.addValues p.1) p.2
      else if isKeyword t kMinus then
        if (pop s1).1.kind = .lcurly then
          (group pre n Group.empty (pop s1).2).bind fun p => tail pre n subj pred loc (g.addMinus p.1) p.2
        else .error .syntax
      else .error .syntax
    else .ok (g, s)
end

/-- `parseWhere` (SPARQLParser.cpp:1596-1613) -/
def parseWhere (pre : List (Text × Text)) (s : St) : Except Err (Group × St) :=
  let t := (pop s).1
  let s1 := (pop s).2
  if t.kind = .lcurly then group pre (s.toks.length + 1) Group.empty s1
  else if t.kind = .identifier ∧ isKeyword t kWhere = true then
    if (pop s1).1.kind = .lcurly then group pre (s.toks.length + 1) Group.empty (pop s1).2 else .error .syntax
  else .error .syntax

/-- The WHERE part of the text of a query, with the prefixes that were declared before. -/
def readWhere (pre : List (Text × Text)) (names : List (Text × Nat)) (count : Nat) (t : Text) : Except Err (Group × St) :=
  parseWhere pre ⟨lex t, names, count⟩

end Trident.Sparql.Parse
