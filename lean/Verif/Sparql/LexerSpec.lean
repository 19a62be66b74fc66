import Verif.Sparql.Lexer
/-!
# How tokens are written
-/
namespace Trident.Sparql.Lex

/-- Blank, tab, ends of lines and of pages. -/
def blank (c : Nat) : Bool := [32, 9, 10, 13, 12].contains c

/-- `A` to `Z` and `a` to `z` -/
def letter (c : Nat) : Bool := decide (65 ≤ c ∧ c ≤ 90 ∨ 97 ≤ c ∧ c ≤ 122)

/-- `0` to `9` -/
def digit (c : Nat) : Bool := decide (48 ≤ c ∧ c ≤ 57)

/-- Letters, digits and `_` -/
def nameChar (c : Nat) : Bool := letter c || digit c || [95].contains c

/-- Also `.` and `-` -/
def wordChar (c : Nat) : Bool := nameChar c || [46, 45].contains c

/-- What an IRI cannot have: control characters, blanks and `<>"{}^|` and the grave accent -/
def iriEnd (c : Nat) : Bool := decide (c < 33) || [60, 62, 34, 123, 125, 94, 124, 96].contains c

/-- White space and comments between tokens. -/
inductive Gap : Text → Prop
  | nil : Gap []
  | space {c : Nat} {g : Text} : blank c = true → Gap g → Gap (c :: g)
  | comment {t : Text} {e : Nat} {g : Text} : (∀ c ∈ t, c ≠ 10 ∧ c ≠ 13) → (e = 10 ∨ e = 13) → Gap g → Gap (35 :: (t ++ e :: g))

/-- The tokens that are a mark. -/
def marks : List (Kind × Nat) :=
  [(.colon, 58), (.semicolon, 59), (.comma, 44), (.dot, 46), (.lcurly, 123), (.rcurly, 125), (.lparen, 40), (.rparen, 41), (.at, 64),
   (.plus, 43), (.minus, 45), (.mul, 42), (.div, 47), (.equal, 61), (.not, 33), (.greater, 62)]

/-- The tokens of two marks: `!=`, `>=`, `||`, `&&`, `^^` -/
def pairs : List (Kind × Nat × Nat) := [(.notEqual, 33, 61), (.greaterOrEqual, 62, 61), (.or, 124, 124), (.and, 38, 38), (.type, 94, 94)]

/-- How a token is written: `?x` or `$x`, `<i>`, `"v"` or `'v'`, a word, a mark, two marks, `<`, `<=`, `12` or `1.5`.  Names have letters, digits and `_`, words also
`.` and `-`.  The tokens of `<` and `<=` do not have the sign `<` in their text. -/
inductive Word : Tok → Text → Prop
  | var {c : Nat} {x : Text} : (c = 63 ∨ c = 36) → (∀ d ∈ x, nameChar d = true) → Word ⟨.variable, x⟩ (c :: x)
  | iri {v : Text} : (∀ d ∈ v, iriEnd d = false ∧ d ≠ 92) → Word ⟨.iri, v⟩ (60 :: (v ++ [62]))
  | string {q : Nat} {v : Text} : (q = 34 ∨ q = 39) → (∀ d ∈ v, d ≠ q ∧ d ≠ 92) → Word ⟨.string, v⟩ (q :: (v ++ [q]))
  | word {c : Nat} {x : Text} : letter c = true → (∀ d ∈ x, wordChar d = true) → (c :: x).getLast? ≠ some 46 →
      Word ⟨.identifier, c :: x⟩ (c :: x)
  | mark {k : Kind} {c : Nat} : (k, c) ∈ marks → Word ⟨k, [c]⟩ [c]
  | pair {k : Kind} {c d : Nat} : (k, c, d) ∈ pairs → Word ⟨k, [c, d]⟩ [c, d]
  | less : Word ⟨.less, []⟩ [60]
  | lessOrEqual : Word ⟨.lessOrEqual, [61]⟩ [60, 61]
  | int {x : Text} : x ≠ [] → (∀ d ∈ x, digit d = true) → Word ⟨.integer, x⟩ x
  | dec {x y : Text} : x ≠ [] → (∀ d ∈ x, digit d = true) → (∀ d ∈ y, digit d = true) → Word ⟨.decimal, x ++ 46 :: y⟩ (x ++ 46 :: y)

/-- The text is not the rest of an IRI after the sign `<`: something that cannot be in an IRI comes before `>`, or there is no `>`. -/
def NoIri (rest : Text) : Prop :=
  (∀ d ∈ rest, iriEnd d = false ∧ d ≠ 92) ∨ ∃ v c r, rest = v ++ c :: r ∧ (∀ d ∈ v, iriEnd d = false ∧ d ≠ 92) ∧ iriEnd c = true ∧ c ≠ 62

/-- What comes after a token does not belong to it.  A word can have a point after it if no letter follows.  After `<` there is nothing that ends in `>` and could be
an IRI. -/
def Follows (t : Tok) (rest : Text) : Prop :=
  match t.kind with
  | .variable => ∀ c ∈ rest.head?, nameChar c = false
  | .identifier => (∀ c ∈ rest.head?, wordChar c = false) ∨ ∃ r, rest = 46 :: r ∧ ∀ c ∈ r.head?, wordChar c = false
  | .not | .greater => rest.head? ≠ some 61
  | .less => rest.head? ≠ some 61 ∧ NoIri rest
  | .lessOrEqual => NoIri (61 :: rest)
  | .integer => ∀ c ∈ rest.head?, digit c = false ∧ c ≠ 46
  | .decimal => ∀ c ∈ rest.head?, digit c = false
  | _ => True

/-- The text is these tokens, with gaps between them. -/
inductive Written : Text → List Tok → Prop
  | nil {g : Text} : Gap g → Written g []
  | cons {g w rest : Text} {t : Tok} {ts : List Tok} : Gap g → Word t w → Follows t rest → Written rest ts → Written (g ++ (w ++ rest)) (t :: ts)

/-- One way to write a token. -/
def print (t : Tok) : Text :=
  match t.kind with
  | .variable => 63 :: t.raw
  | .iri => 60 :: (t.raw ++ [62])
  | .string => 34 :: (t.raw ++ [34])
  | .less => [60]
  | .lessOrEqual => [60, 61]
  | _ => t.raw

/-- The tokens that can be written: no quotes or backslashes in strings, no marks in IRIs, and names of letters; no
decimal numbers. -/
def writable (t : Tok) : Bool :=
  match t.kind with
  | .variable => t.raw.all nameChar
  | .iri => t.raw.all fun d => !iriEnd d && d != 92
  | .string => t.raw.all fun d => d != 34 && d != 92
  | .identifier => match t.raw with
    | [] => false
    | c :: x => letter c && x.all wordChar && (c :: x).getLast? != some 46
  | .less => t.raw == []
  | .lessOrEqual => t.raw == [61]
  | .integer => !t.raw.isEmpty && t.raw.all digit
  | .decimal => false
  | k => match t.raw with
    | [c] => marks.contains (k, c)
    | [c, d] => pairs.contains (k, c, d)
    | _ => false

/-- The tokens with a blank after each. -/
def printAll : List Tok → Text
  | [] => []
  | t :: ts => print t ++ 32 :: printAll ts

end Trident.Sparql.Lex
