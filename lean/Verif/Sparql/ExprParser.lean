import Verif.Sparql.Constants
/-!
# The parser of conditions

`SPARQLParser::parseExpression` and what it calls (rdf3x/src/cts/SPARQLParser.cpp), over the tokens of the lexer.  Not modelled, and an error of its own:
aggregates and NOT EXISTS.
-/
namespace Trident.Sparql.Parse

open Lex

/-- The operators and functions with one argument (`Filter::Type`, rdf3x/include/cts/parser/SPARQLParser.hpp). -/
inductive UnOp
  | not | plus | minus | str | lang | datatype | isIri | isBlank | isLiteral | decimal | string
  deriving DecidableEq, Repr

/-- The operators and functions with two arguments. -/
inductive BinOp
  | or | and | eq | ne | lt | le | gt | ge | add | sub | mul | div | contains | langMatches | sameTerm
  deriving DecidableEq, Repr

/-- `SPARQLParser::Filter`.  `nil` and `arg` are lists of arguments; an argument of `regex` and `replace` that is left out is `nil`. -/
inductive Cond
  | var (id : Nat)
  | iri (v : Text)
  | lit (v : Text) (sub : Sub)
  | un (op : UnOp) (a : Cond)
  | bin (op : BinOp) (a b : Cond)
  | bound (id : Nat)
  | regex (a b c : Cond)
  | replace (a b c d : Cond)
  | isIn (a args : Cond)
  | notIn (a : Cond) (values : List Text)
  | call (f : Text) (args : Cond)
  | nil
  | arg (a rest : Cond)
  deriving DecidableEq, Repr

/-- A parser of a production. -/
abbrev Parser := St → Except Err (Cond × St)

def kIn : Text := [105, 110]
def kNot : Text := [110, 111, 116]
def kAs : Text := [97, 115]
def kTrue : Text := [116, 114, 117, 101]
def kFalse : Text := [102, 97, 108, 115, 101]
def kBound : Text := [98, 111, 117, 110, 100]
def kRegex : Text := [114, 101, 103, 101, 120]
def kReplace : Text := [114, 101, 112, 108, 97, 99, 101]
def kXsd : Text := [120, 115, 100]
def kDecimal : Text := [100, 101, 99, 105, 109, 97, 108]
def kDouble : Text := [100, 111, 117, 98, 108, 101]
def kFloat : Text := [102, 108, 111, 97, 116]
def kString : Text := [115, 116, 114, 105, 110, 103]

/-- The names of aggregates (SPARQLParser.cpp:517-543). -/
def aggregates : List Text :=
  [[109, 105, 110],
    [115, 117, 109],
    [109, 97, 120],
    [97, 118, 103],
    [115, 97, 109, 112, 108, 101],
    [99, 111, 117, 110, 116],
    [103, 114, 111, 117, 112, 95, 99, 111, 110, 99, 97, 116]]

/-- The functions with one argument in brackets (SPARQLParser.cpp:592-594, 616-618, 649-651, 664-675). -/
def unaryFunctions : List (Text × UnOp) :=
  [([115, 116, 114], .str),
    ([108, 97, 110, 103], .lang),
    ([100, 97, 116, 97, 116, 121, 112, 101], .datatype),
    ([105, 115, 105, 114, 105], .isIri),
    ([105, 115, 117, 114, 105], .isIri),
    ([105, 115, 98, 108, 97, 110, 107], .isBlank),
    ([105, 115, 108, 105, 116, 101, 114, 97, 108], .isLiteral)]

/-- The functions with two arguments (SPARQLParser.cpp:619-648, 658-667). -/
def binaryFunctions : List (Text × BinOp) :=
  [([99, 111, 110, 116, 97, 105, 110, 115], .contains),
    ([108, 97, 110, 103, 109, 97, 116, 99, 104, 101, 115], .langMatches),
    ([115, 97, 109, 101, 116, 101, 114, 109], .sameTerm)]

/-- SPARQLParser.cpp:1147 -/
def orOp : Kind → Option BinOp
  | .or => some .or
  | _ => none

/-- SPARQLParser.cpp:1126 -/
def andOp : Kind → Option BinOp
  | .and => some .and
  | _ => none

/-- SPARQLParser.cpp:1023-1049 -/
def relOp : Kind → Option BinOp
  | .equal => some .eq
  | .notEqual => some .ne
  | .less => some .lt
  | .lessOrEqual => some .le
  | .greater => some .gt
  | .greaterOrEqual => some .ge
  | _ => none

/-- SPARQLParser.cpp:984-998 -/
def addOp : Kind → Option BinOp
  | .plus => some .add
  | .minus => some .sub
  | _ => none

/-- SPARQLParser.cpp:951-965 -/
def mulOp : Kind → Option BinOp
  | .mul => some .mul
  | .div => some .div
  | _ => none

/-- SPARQLParser.cpp:922-936 -/
def unOp : Kind → Option UnOp
  | .not => some .not
  | .plus => some .plus
  | .minus => some .minus
  | _ => none

/-- The loop over operators of one kind (SPARQLParser.cpp:949-972, 982-1005, 1126-1137, 1147-1158); the fuel is the number of tokens. -/
def loop (ops : Kind → Option BinOp) (sub : Parser) : Nat → Cond → St → Except Err (Cond × St)
  | 0, _, _ => .error .fuel
  | n + 1, a, s =>
    match ops (pop s).1.kind with
    | none => .ok (a, s)
    | some op => (sub (pop s).2).bind fun p => loop ops sub n (.bin op a p.1) p.2

/-- `parseMultiplicativeExpression`, `parseAdditiveExpression`, `parseConditionalAndExpression` and `parseConditionalOrExpression`
(SPARQLParser.cpp:943-1007, 1120-1160) -/
def leftAssoc (ops : Kind → Option BinOp) (sub : Parser) : Parser := fun s =>
  (sub s).bind fun p => loop ops sub (p.2.toks.length + 1) p.1 p.2

/-- `element.value`, which is empty for a variable. -/
def elemText : Elem → Text
  | .var _ => []
  | .iri v => v
  | .lit v _ => v

/-- The values of `NOT IN` up to the closing parenthesis (SPARQLParser.cpp:1075-1090). -/
def notInValues (pre : List (Text × Text)) : Nat → List (Text × Nat) → St → Except Err (List Text × St)
  | 0, _, _ => .error .fuel
  | n + 1, loc, s =>
    (element pre loc s).bind fun p =>
      if (pop p.2.2).1.kind = .comma then (notInValues pre n p.2.1 (pop p.2.2).2).map fun q => (elemText p.1 :: q.1, q.2)
      else if (pop p.2.2).1.kind = .rparen then .ok ([elemText p.1], (pop p.2.2).2) else .error .syntax

/-- The loop of `parseRelationalExpression` (SPARQLParser.cpp:1021-1111).  `IN` is an error.  With an empty list the condition of `NOT IN` is dropped
(1064-1066).  `unget` keeps one token only, so after `NOT` without `IN` the next token is lost, and its text is found with the kind of `NOT` (1098-1099). -/
def relLoop (pre : List (Text × Text)) (sub : Parser) : Nat → Cond → St → Except Err (Cond × St)
  | 0, _, _ => .error .fuel
  | n + 1, a, s =>
    let t := (pop s).1
    let s1 := (pop s).2
    match relOp t.kind with
    | some op => (sub s1).bind fun p => relLoop pre sub n (.bin op a p.1) p.2
    | none =>
      if t.kind = .identifier ∧ isKeyword t kIn = true then .error .syntax
      else if t.kind = .identifier ∧ isKeyword t kNot = true then
        let u := (pop s1).1
        let s2 := (pop s1).2
        if u.kind = .identifier ∧ isKeyword u kIn = true then
          if (pop s2).1.kind ≠ .lparen then .error .syntax
          else if (pop (pop s2).2).1.kind = .rparen then relLoop pre sub n a (pop (pop s2).2).2
          else (notInValues pre (s.toks.length + 1) [] (pop s2).2).map fun p => (.notIn a p.1, p.2)
        else .ok (a, { s2 with toks := ⟨.identifier, u.raw⟩ :: s2.toks })
      else .ok (a, s)

/-- `parseRelationalExpression` (SPARQLParser.cpp:1015-1112) -/
def relational (pre : List (Text × Text)) (sub : Parser) : Parser := fun s =>
  (sub s).bind fun p => relLoop pre sub (p.2.toks.length + 1) p.1 p.2

/-- `parseUnaryExpression` (SPARQLParser.cpp:917-941) -/
def unary (primary : Parser) : Parser := fun s =>
  match unOp (pop s).1.kind with
  | some op => (primary (pop s).2).map fun p => (.un op p.1, p.2)
  | none => primary s

/-- `parseNumericExpression` (SPARQLParser.cpp:1008-1013), for a parser of primary expressions -/
def numericExpr (primary : Parser) : Parser := leftAssoc addOp (leftAssoc mulOp (unary primary))

/-- `parseConditionalAndExpression` -/
def andExpr (pre : List (Text × Text)) (primary : Parser) : Parser := leftAssoc andOp (relational pre (numericExpr primary))

/-- `parseExpression` (SPARQLParser.cpp:1162-1166) -/
def expression (pre : List (Text × Text)) (primary : Parser) : Parser := leftAssoc orOp (andExpr pre primary)

/-- A token that must follow. -/
def expect (k : Kind) {α : Type} (p : α × St) : Except Err (α × St) :=
  if (pop p.2).1.kind = k then .ok (p.1, (pop p.2).2) else .error .syntax

/-- `parseBrackettedExpression` (SPARQLParser.cpp:1168-1183); `e` reads expressions. -/
def bracketed (e : Parser) : Parser := fun s =>
  if (pop s).1.kind ≠ .lparen then .error .syntax else (e (pop s).2).bind (expect .rparen)

/-- Arguments up to the closing parenthesis (SPARQLParser.cpp:482-497 and 714-729). -/
def arguments (e : Parser) : Nat → St → Except Err (Cond × St)
  | 0, _ => .error .fuel
  | n + 1, s =>
    (e s).bind fun p =>
      if (pop p.2).1.kind = .comma then (arguments e n (pop p.2).2).map fun q => (.arg p.1 q.1, q.2)
      else if (pop p.2).1.kind = .rparen then .ok (.arg p.1 .nil, (pop p.2).2) else .error .syntax

/-- One more argument if a comma follows (SPARQLParser.cpp:678-681 and 692-699). -/
def optionalArg (e : Parser) : Parser := fun s =>
  if (pop s).1.kind = .comma then e (pop s).2 else .ok (.nil, s)

/-- `parseBuiltInCall` (SPARQLParser.cpp:509-820) -/
def builtin (e : Parser) : Parser := fun s =>
  let t := (pop s).1
  let s1 := (pop s).2
  let w := t.raw.map lower
  if t.kind ≠ .identifier then .error .syntax
  else if aggregates.contains w then .error .notModelled
  else if w = kXsd then
    if (pop s1).1.kind ≠ .colon then .error .syntax
    else
      let f := (pop (pop s1).2).1
      let s2 := (pop (pop s1).2).2
      if isKeyword f kDecimal = true ∨ isKeyword f kDouble = true ∨ isKeyword f kFloat = true then (bracketed e s2).map fun p => (.un .decimal p.1, p.2)
      else if isKeyword f kString = true then (bracketed e s2).map fun p => (.un .string p.1, p.2)
      else .error .syntax
  else if w = kNot then .error .notModelled
  else if w = kBound then
    if (pop s1).1.kind ≠ .lparen then .error .syntax
    else if (pop (pop s1).2).1.kind ≠ .variable then .error .syntax
    else
      let p := nameVariable (pop (pop s1).2).2 (pop (pop s1).2).1.raw
      expect .rparen (.bound p.1, p.2)
  else match find unaryFunctions w with
    | some op => (bracketed e s1).map fun p => (.un op p.1, p.2)
    | none =>
      if (pop s1).1.kind ≠ .lparen then .error .syntax
      else match find binaryFunctions w with
        | some op =>
          (e (pop s1).2).bind fun p => (expect .comma p).bind fun p => (e p.2).bind fun q => (expect .rparen q).map fun q => (.bin op p.1 q.1, q.2)
        | none =>
          if w = kRegex then
            (e (pop s1).2).bind fun p => (expect .comma p).bind fun p => (e p.2).bind fun q => (optionalArg e q.2).bind fun r =>
              (expect .rparen r).map fun r => (.regex p.1 q.1 r.1, r.2)
          else if w = kReplace then
            (e (pop s1).2).bind fun p => (expect .comma p).bind fun p => (e p.2).bind fun q => (optionalArg e q.2).bind fun r =>
              (optionalArg e r.2).bind fun u => (expect .rparen u).map fun u => (.replace p.1 q.1 r.1 u.1, u.2)
          else if w = kIn then
            (e (pop s1).2).bind fun p =>
              if (pop p.2).1.kind = .rparen then .ok (.isIn p.1 .nil, (pop p.2).2)
              else (expect .comma p).bind fun p => (arguments e (s.toks.length + 1) p.2).map fun q => (.isIn p.1 q.1, q.2)
          else .error .syntax

/-- `parseIRIrefOrFunction` after the IRI (SPARQLParser.cpp:464-507) -/
def iriOrCall (e : Parser) (mustCall : Bool) (v : Text) : Parser := fun s =>
  if (pop s).1.kind = .lparen then
    if (pop (pop s).2).1.kind = .rparen then .ok (.call v .nil, (pop (pop s).2).2)
    else (arguments e (s.toks.length + 1) (pop s).2).map fun p => (.call v p.1, p.2)
  else if mustCall then .error .syntax else .ok (.iri v, s)

/-- `parsePrimaryExpression` (SPARQLParser.cpp:823-915).  The fuel bounds the nesting of expressions. -/
def primary (pre : List (Text × Text)) : Nat → St → Except Err (Cond × St)
  | 0, _ => .error .fuel
  | n + 1, s =>
    let e := expression pre (primary pre n)
    let t := (pop s).1
    let s1 := (pop s).2
    match t.kind with
    | .lparen => bracketed e s
    | .identifier =>
      match find pre t.raw with
      | some iri =>
        if t.raw = kXsd then builtin e s
        else if (pop s1).1.kind ≠ .colon then .error .syntax
        else .ok (.iri (iri ++ (pop (pop s1).2).1.raw), (pop (pop s1).2).2)
      | none =>
        if isKeyword t kTrue then .ok (.lit kTrue (.type xsdBoolean), s1)
        else if isKeyword t kFalse then .ok (.lit kFalse (.type xsdBoolean), s1)
        else builtin e s
    | .iri => iriOrCall e false (unescape t.raw) s1
    | .string => (rdfLiteral pre t.raw s1).bind fun p =>
      match p.1 with
      | .lit v sub => .ok (.lit v sub, p.2)
      | _ => .error .syntax
    | .integer => .ok (.lit t.raw (.type xsdInteger), s1)
    | .decimal => .ok (.lit t.raw (.type xsdDecimal), s1)
    | .variable => let p := nameVariable s1 t.raw; .ok (.var p.1, p.2)
    | _ => .error .syntax

/-- `parseConstraint` (SPARQLParser.cpp:1185-1198): what follows FILTER. -/
def constraint (pre : List (Text × Text)) : Parser := fun s =>
  let e := expression pre (primary pre (s.toks.length + 1))
  match (pop s).1.kind with
  | .lparen => bracketed e s
  | .identifier => builtin e s
  | .iri => iriOrCall e true (unescape (pop s).1.raw) (pop s).2
  | _ => .error .syntax

/-- `parseFilter` (SPARQLParser.cpp:1215-1226): a point after the condition is skipped. -/
def parseFilter (pre : List (Text × Text)) : Parser := fun s =>
  (constraint pre s).map fun p => if (pop p.2).1.kind = .dot then (p.1, (pop p.2).2) else p

/-- `parseAssignment` (SPARQLParser.cpp:1562-1594): what follows BIND.  The word AS is found in the text of the token, whatever its kind. -/
def assignment (pre : List (Text × Text)) (s : St) : Except Err ((Cond × Nat) × St) :=
  if (pop s).1.kind ≠ .lparen then .error .syntax
  else (expression pre (primary pre (s.toks.length + 1)) (pop s).2).bind fun p =>
    if isKeyword (pop p.2).1 kAs = false then .error .syntax
    else (element pre [] (pop p.2).2).bind fun q =>
      match q.1 with
      | .var x => (expect .rparen ((p.1, x), q.2.2)).map fun r => if (pop r.2).1.kind = .dot then (r.1, (pop r.2).2) else r
      | _ => .error .syntax

/-- `parsePrefix` (SPARQLParser.cpp:155-193): the declared prefixes.  The words of a name with `-` between them are put together (168-176). -/
def prologue : Nat → List (Text × Text) → St → Except Err (List (Text × Text) × St)
  | 0, _, _ => .error .fuel
  | n + 1, pre, s =>
    if (pop s).1.kind = .identifier ∧ isKeyword (pop s).1 kPrefix = true then
      let s1 := (pop s).2
      if (pop s1).1.kind ≠ .identifier then .error .syntax
      else
        let p := dashes (s1.toks.length + 1) (pop s1).1.raw (pop s1).2
        if (pop p.2).1.kind ≠ .colon then .error .syntax
        else
          let s2 := (pop p.2).2
          if (pop s2).1.kind ≠ .iri then .error .syntax
          else if (find pre p.1).isSome then .error .syntax
          else prologue n (pre ++ [(p.1, unescape (pop s2).1.raw)]) (pop s2).2
    else .ok (pre, s)
where
  dashes : Nat → Text → St → Text × St
    | 0, name, s => (name, s)
    | n + 1, name, s =>
      if (pop s).1.kind ≠ .colon ∧ (pop s).1.raw = [45] then
        dashes n (name ++ 45 :: (pop (pop s).2).1.raw) (pop (pop s).2).2
      else (name, s)
  kPrefix : Text := [112, 114, 101, 102, 105, 120]

/-- The condition in a text that starts after FILTER. -/
def readFilter (pre : List (Text × Text)) (names : List (Text × Nat)) (count : Nat) (t : Text) : Except Err (Cond × St) := parseFilter pre ⟨lex t, names, count⟩

/-- The assignment in a text that starts after BIND. -/
def readBind (pre : List (Text × Text)) (names : List (Text × Nat)) (count : Nat) (t : Text) : Except Err ((Cond × Nat) × St) := assignment pre ⟨lex t, names, count⟩

/-- The prefixes that are declared at the start of a query. -/
def readPrologue (t : Text) : Except Err (List (Text × Text) × St) := prologue ((lex t).length + 1) [] ⟨lex t, [], 0⟩

end Trident.Sparql.Parse
