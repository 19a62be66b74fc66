/-!
# The lexer of SPARQL queries

`SPARQLLexer` (rdf3x/src/cts/SPARQLLexer.cpp) reads tokens from the text of a query; the parser does not influence it, and `unget` only returns the same
token again.  A text is a list of bytes; the position is the rest of the text.
-/
namespace Trident.Sparql.Lex

abbrev Text := List Nat

/-- `Token` (SPARQLLexer.hpp:22) without `None` and `Double`, which the lexer never returns. -/
inductive Kind
  | error | eof | iri | string | variable | identifier | colon | semicolon | comma | dot | underscore | lcurly | rcurly | lparen | rparen | lbracket | rbracket
  | anon | equal | notEqual | less | lessOrEqual | greater | greaterOrEqual | at | type | not | or | and | plus | minus | mul | div | integer | decimal
  deriving DecidableEq, Repr

/-- A token with the text between `tokenStart` and `tokenEnd` or `pos` (`getTokenValue`, SPARQLLexer.cpp:282-289). -/
structure Tok where
  kind : Kind
  raw : Text
  deriving DecidableEq, Repr

def isLower (c : Nat) : Bool := decide (97 ≤ c ∧ c ≤ 122)
def isUpper (c : Nat) : Bool := decide (65 ≤ c ∧ c ≤ 90)
def isDigit (c : Nat) : Bool := decide (48 ≤ c ∧ c ≤ 57)

/-- SPARQLLexer.cpp:46-51 -/
def isSpace (c : Nat) : Bool := c == 32 || c == 9 || c == 10 || c == 13 || c == 12

/-- The letters of the name of a variable (SPARQLLexer.cpp:222). -/
def isVarChar (c : Nat) : Bool := isDigit c || isUpper c || isLower c || c == 95

/-- The letters of an identifier after the first (SPARQLLexer.cpp:265). -/
def isIdentChar (c : Nat) : Bool := isVarChar c || c == 46 || c == 45

/-- The letters that end an IRI (SPARQLLexer.cpp:162). -/
def stopsIri (c : Nat) : Bool :=
  c == 60 || c == 62 || c == 34 || c == 123 || c == 125 || c == 94 || c == 124 || c == 96 || decide (c ≤ 32)

/-- The text after a comment (SPARQLLexer.cpp:53-60): the end of the line is skipped too. -/
def skipLine : Text → Text
  | [] => []
  | c :: r => if c == 10 || c == 13 then r else skipLine r

/-- The loop of an IRI (SPARQLLexer.cpp:148-164): what is read, and the rest with the letter that ended it.  The letter after a backslash is skipped. -/
def scanIri : Text → Text × Text
  | [] => ([], [])
  | 92 :: [] => ([92], [])
  | 92 :: d :: r => let p := scanIri r; (92 :: d :: p.1, p.2)
  | c :: r => if !isLower c && !isUpper c && stopsIri c then ([], c :: r) else let p := scanIri r; (c :: p.1, p.2)

/-- The loop of a string with the quote `q` (SPARQLLexer.cpp:183-198 and 200-215): the text, and the rest after the closing quote. -/
def scanString (q : Nat) : Text → Text × Text
  | [] => ([], [])
  | 92 :: [] => ([92], [])
  | 92 :: d :: r => let p := scanString q r; (92 :: d :: p.1, p.2)
  | c :: r => if c == q then ([], r) else let p := scanString q r; (c :: p.1, p.2)

/-- The digits of a number with at most one point (SPARQLLexer.cpp:240-249), and whether there was none. -/
def scanNumber : Bool → Text → Bool × Text × Text
  | isInt, [] => (isInt, [], [])
  | isInt, c :: r =>
    if isDigit c then let p := scanNumber isInt r; (p.1, c :: p.2.1, p.2.2)
    else if c == 46 && isInt then let p := scanNumber false r; (p.1, c :: p.2.1, p.2.2)
    else (isInt, [], c :: r)

/-- The end of an identifier: a last point is left to the input (SPARQLLexer.cpp:272-275). -/
def dropDot (id rest : Text) : Text × Text := if id.getLast? = some 46 then (id.dropLast, 46 :: rest) else (id, rest)

/-- The first letter `c` of a token and the rest (SPARQLLexer.cpp:62-276).  Tokens with one letter have it as their text. -/
def token (c : Nat) (r : Text) : Tok × Text :=
  let one (k : Kind) : Tok × Text := (⟨k, [c]⟩, r)
  match c with
  | 58 => one .colon
  | 59 => one .semicolon
  | 44 => one .comma
  | 46 => one .dot
  | 95 => one .underscore
  | 123 => one .lcurly
  | 125 => one .rcurly
  | 40 => one .lparen
  | 41 => one .rparen
  | 64 => one .at
  | 43 => one .plus
  | 45 => one .minus
  | 42 => one .mul
  | 47 => one .div
  | 61 => one .equal
  | 33 => if r.head? = some 61 then (⟨.notEqual, [c, 61]⟩, r.tail) else one .not
  | 91 => let s := r.dropWhile isSpace
    if s.head? = some 93 then (⟨.anon, c :: (r.takeWhile isSpace ++ [93])⟩, s.tail) else (⟨.lbracket, c :: r.takeWhile isSpace⟩, s)
  | 93 => one .rbracket
  | 62 => if r.head? = some 61 then (⟨.greaterOrEqual, [c, 61]⟩, r.tail) else one .greater
  | 94 => if r.head? = some 94 then (⟨.type, [c, 94]⟩, r.tail) else one .error
  | 124 => if r.head? = some 124 then (⟨.or, [c, 124]⟩, r.tail) else one .error
  | 38 => if r.head? = some 38 then (⟨.and, [c, 38]⟩, r.tail) else one .error
  | 60 =>
    if (scanIri r).2.head? = some 62 then (⟨.iri, (scanIri r).1⟩, (scanIri r).2.tail)
    else if r.head? = some 61 then (⟨.lessOrEqual, [61]⟩, r.tail) else (⟨.less, []⟩, r)
  | 39 => (⟨.string, (scanString 39 r).1⟩, (scanString 39 r).2)
  | 34 => (⟨.string, (scanString 34 r).1⟩, (scanString 34 r).2)
  | 63 => (⟨.variable, r.takeWhile isVarChar⟩, r.dropWhile isVarChar)
  | 36 => (⟨.variable, r.takeWhile isVarChar⟩, r.dropWhile isVarChar)
  | _ =>
    if isDigit c then (⟨if (scanNumber true r).1 then .integer else .decimal, c :: (scanNumber true r).2.1⟩, (scanNumber true r).2.2)
    else if isUpper c || isLower c then
      let p := dropDot (c :: r.takeWhile isIdentChar) (r.dropWhile isIdentChar)
      (⟨.identifier, p.1⟩, p.2)
    else (⟨.error, []⟩, c :: r)

/-- `getNext` (SPARQLLexer.cpp:24-280).  The fuel is the length of the text, as each round reads a letter. -/
def next : Nat → Text → Tok × Text
  | 0, t => (⟨.eof, []⟩, t)
  | _ + 1, [] => (⟨.eof, []⟩, [])
  | n + 1, c :: r => if isSpace c then next n r else if c = 35 then next n (skipLine r) else token c r

/-- All tokens up to the end or the first error.  After them the lexer returns the end or the error again. -/
def tokens : Nat → Text → List Tok
  | 0, _ => []
  | n + 1, t =>
    let p := next (t.length + 1) t
    if p.1.kind = .eof then [] else if p.1.kind = .error then [p.1] else p.1 :: tokens n p.2

/-- The tokens of a query. -/
def lex (t : Text) : List Tok := tokens (t.length + 1) t

/-- `getIRIValue` and `getLiteralValue` (SPARQLLexer.cpp:291-321): backslashes are removed. -/
def unescape : Text → Text
  | [] => []
  | 92 :: [] => []
  | 92 :: d :: r => d :: unescape r
  | c :: r => c :: unescape r

/-- Small letters (SPARQLLexer.cpp:330-332). -/
def lower (c : Nat) : Nat := if isUpper c then c + 32 else c

/-- `isKeyword` (SPARQLLexer.cpp:323-339), for words in small letters: it looks at the text only, and not at the kind of the token. -/
def isKeyword (t : Tok) (word : Text) : Bool := t.raw.map lower == word

end Trident.Sparql.Lex
