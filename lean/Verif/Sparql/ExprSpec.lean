import Verif.Sparql.ElemSpec
import Verif.Sparql.ExprParser
/-!
# What a condition says

`SCond` is a condition as a user writes it, with names of variables.  `Derives` is the grammar of SPARQL for expressions (SPARQL 1.1, rules 110 to 128), and
`meaning` is the tree that the condition stands for.
-/
namespace Trident.Sparql.Parse.Spec

open Lex Parse

/-- A condition. -/
inductive SCond
  | elem (e : SElem)
  | int (t : Text)
  | dec (t : Text)
  | bool (b : Bool)
  | un (op : UnOp) (a : SCond)
  | bin (op : BinOp) (a b : SCond)
  | bound (x : Text)
  | regex (a b c : SCond)
  | replace (a b c d : SCond)
  | isIn (a args : SCond)
  | call (f : Text) (args : SCond)
  | nil
  | arg (a rest : SCond)

/-- A term as a condition. -/
def ofElem : Elem → Cond
  | .var i => .var i
  | .iri v => .iri v
  | .lit v t => .lit v t

/-- `http://www.w3.org/2001/XMLSchema#` -/
def xsdNs : Text := [104, 116, 116, 112, 58, 47, 47, 119, 119, 119, 46, 119, 51, 46, 111, 114, 103, 47, 50, 48, 48, 49, 47, 88, 77, 76, 83, 99, 104, 101, 109, 97, 35]

def tTrue : Text := [116, 114, 117, 101]
def tFalse : Text := [102, 97, 108, 115, 101]
def tXsd : Text := [120, 115, 100]

/-- What a condition stands for; `pre` are the declared prefixes and `num` numbers the variables. -/
def SCond.meaning (pre : List (Text × Text)) (num : Text → Nat) : SCond → Cond
  | .elem e => ofElem (e.meaning pre num)
  | .int t => .lit t (.type (xsdNs ++ [105, 110, 116, 101, 103, 101, 114]))
  | .dec t => .lit t (.type (xsdNs ++ [100, 101, 99, 105, 109, 97, 108]))
  | .bool b => .lit (if b then tTrue else tFalse) (.type (xsdNs ++ [98, 111, 111, 108, 101, 97, 110]))
  | .un op a => .un op (a.meaning pre num)
  | .bin op a b => .bin op (a.meaning pre num) (b.meaning pre num)
  | .bound x => .bound (num x)
  | .regex a b c => .regex (a.meaning pre num) (b.meaning pre num) (c.meaning pre num)
  | .replace a b c d => .replace (a.meaning pre num) (b.meaning pre num) (c.meaning pre num) (d.meaning pre num)
  | .isIn a args => .isIn (a.meaning pre num) (args.meaning pre num)
  | .call f args => .call f (args.meaning pre num)
  | .nil => .nil
  | .arg a rest => .arg (a.meaning pre num) (rest.meaning pre num)

/-- The variables of a condition. -/
def SCond.vars : SCond → List Text
  | .elem e => e.vars
  | .int _ | .dec _ | .bool _ | .nil => []
  | .un _ a => a.vars
  | .bin _ a b => a.vars ++ b.vars
  | .bound x => [x]
  | .regex a b c => a.vars ++ b.vars ++ c.vars
  | .replace a b c d => a.vars ++ b.vars ++ c.vars ++ d.vars
  | .isIn a args => a.vars ++ args.vars
  | .call _ args => args.vars
  | .arg a rest => a.vars ++ rest.vars

/-- The levels of the grammar: `||`, `&&`, comparisons, `+ -`, `* /`, `! + -` in front, and what has no operator outside of brackets. -/
inductive Level
  | or | and | rel | add | mul | unary | primary | args
  deriving DecidableEq

def orTok : Tok := ⟨.or, [124, 124]⟩
def andTok : Tok := ⟨.and, [38, 38]⟩

/-- `=`, `!=`, `<`, `<=`, `>`, `>=` (the lexer leaves out the sign `<` in the text of its tokens) -/
def relToks : List (Tok × BinOp) :=
  [(⟨.equal, [61]⟩, .eq), (⟨.notEqual, [33, 61]⟩, .ne), (⟨.less, []⟩, .lt), (⟨.lessOrEqual, [61]⟩, .le), (⟨.greater, [62]⟩, .gt),
   (⟨.greaterOrEqual, [62, 61]⟩, .ge)]

/-- `+`, `-` -/
def addToks : List (Tok × BinOp) := [(⟨.plus, [43]⟩, .add), (⟨.minus, [45]⟩, .sub)]

/-- `*`, `/` -/
def mulToks : List (Tok × BinOp) := [(⟨.mul, [42]⟩, .mul), (⟨.div, [47]⟩, .div)]

/-- `!`, `+`, `-` -/
def unToks : List (Tok × UnOp) := [(⟨.not, [33]⟩, .not), (⟨.plus, [43]⟩, .plus), (⟨.minus, [45]⟩, .minus)]

/-- The functions with one argument; the name can be written in small or capital letters. -/
def functions1 : List (Text × UnOp) :=
  [([115, 116, 114], .str),
    ([108, 97, 110, 103], .lang),
    ([100, 97, 116, 97, 116, 121, 112, 101], .datatype),
    ([105, 115, 105, 114, 105], .isIri),
    ([105, 115, 117, 114, 105], .isIri),
    ([105, 115, 98, 108, 97, 110, 107], .isBlank),
    ([105, 115, 108, 105, 116, 101, 114, 97, 108], .isLiteral)]

/-- The functions with two arguments. -/
def functions2 : List (Text × BinOp) :=
  [([99, 111, 110, 116, 97, 105, 110, 115], .contains),
    ([108, 97, 110, 103, 109, 97, 116, 99, 104, 101, 115], .langMatches),
    ([115, 97, 109, 101, 116, 101, 114, 109], .sameTerm)]

/-- The conversions `xsd:…` -/
def casts : List (Text × UnOp) :=
  [([100, 101, 99, 105, 109, 97, 108], .decimal),
    ([100, 111, 117, 98, 108, 101], .decimal),
    ([102, 108, 111, 97, 116], .decimal),
    ([115, 116, 114, 105, 110, 103], .string)]

/-- The condition `c` of a level is written with these tokens.  The prefixes `pre` do not have the names of functions, and `xsd` is not used for other terms than
conversions.  `in(a, …)` is how this program writes `a IN (…)`. -/
inductive Derives (pre : List (Text × Text)) : Level → SCond → List Tok → Prop
  | orUp {c : SCond} {s : List Tok} : Derives pre .and c s → Derives pre .or c s
  | or {a b : SCond} {s t : List Tok} : Derives pre .or a s → Derives pre .and b t → Derives pre .or (.bin .or a b) (s ++ orTok :: t)
  | andUp {c : SCond} {s : List Tok} : Derives pre .rel c s → Derives pre .and c s
  | and {a b : SCond} {s t : List Tok} : Derives pre .and a s → Derives pre .rel b t → Derives pre .and (.bin .and a b) (s ++ andTok :: t)
  | relUp {c : SCond} {s : List Tok} : Derives pre .add c s → Derives pre .rel c s
  | rel {a b : SCond} {s t : List Tok} {o : Tok} {op : BinOp} : Derives pre .add a s → Derives pre .add b t → (o, op) ∈ relToks →
      Derives pre .rel (.bin op a b) (s ++ o :: t)
  | addUp {c : SCond} {s : List Tok} : Derives pre .mul c s → Derives pre .add c s
  | add {a b : SCond} {s t : List Tok} {o : Tok} {op : BinOp} : Derives pre .add a s → Derives pre .mul b t → (o, op) ∈ addToks →
      Derives pre .add (.bin op a b) (s ++ o :: t)
  | mulUp {c : SCond} {s : List Tok} : Derives pre .unary c s → Derives pre .mul c s
  | mul {a b : SCond} {s t : List Tok} {o : Tok} {op : BinOp} : Derives pre .mul a s → Derives pre .unary b t → (o, op) ∈ mulToks →
      Derives pre .mul (.bin op a b) (s ++ o :: t)
  | unaryUp {c : SCond} {s : List Tok} : Derives pre .primary c s → Derives pre .unary c s
  | unary {a : SCond} {s : List Tok} {o : Tok} {op : UnOp} : Derives pre .primary a s → (o, op) ∈ unToks → Derives pre .unary (.un op a) (o :: s)
  | paren {c : SCond} {s : List Tok} : Derives pre .or c s → Derives pre .primary c (lparen :: (s ++ [rparen]))
  | elem {e : SElem} : e.Ok pre → e ≠ .a → (∀ l, e ≠ .name tXsd l) → Derives pre .primary (.elem e) e.toks
  | int {t : Text} : Derives pre .primary (.int t) [⟨.integer, t⟩]
  | dec {t : Text} : Derives pre .primary (.dec t) [⟨.decimal, t⟩]
  | bool {b : Bool} {w : Text} : w.map lower = (if b then tTrue else tFalse) → find pre w = none → Derives pre .primary (.bool b) [ident w]
  | function1 {f w : Text} {op : UnOp} {a : SCond} {s : List Tok} : (f, op) ∈ functions1 → w.map lower = f → find pre w = none → Derives pre .or a s →
      Derives pre .primary (.un op a) (ident w :: lparen :: (s ++ [rparen]))
  | function2 {f w : Text} {op : BinOp} {a b : SCond} {s t : List Tok} : (f, op) ∈ functions2 → w.map lower = f → find pre w = none → Derives pre .or a s →
      Derives pre .or b t → Derives pre .primary (.bin op a b) (ident w :: lparen :: (s ++ comma :: (t ++ [rparen])))
  | cast {f w : Text} {op : UnOp} {a : SCond} {s : List Tok} : (f, op) ∈ casts → w.map lower = f → Derives pre .or a s →
      Derives pre .primary (.un op a) (ident tXsd :: colon :: ident w :: lparen :: (s ++ [rparen]))
  | bound {w x : Text} : w.map lower = [98, 111, 117, 110, 100] → find pre w = none →
      Derives pre .primary (.bound x) [ident w, lparen, ⟨.variable, x⟩, rparen]
  | regex2 {w : Text} {a b : SCond} {s t : List Tok} : w.map lower = [114, 101, 103, 101, 120] → find pre w = none → Derives pre .or a s → Derives pre .or b t →
      Derives pre .primary (.regex a b .nil) (ident w :: lparen :: (s ++ comma :: (t ++ [rparen])))
  | regex3 {w : Text} {a b c : SCond} {s t u : List Tok} : w.map lower = [114, 101, 103, 101, 120] → find pre w = none → Derives pre .or a s → Derives pre .or b t →
      Derives pre .or c u → Derives pre .primary (.regex a b c) (ident w :: lparen :: (s ++ comma :: (t ++ comma :: (u ++ [rparen]))))
  | replace3 {w : Text} {a b c : SCond} {s t u : List Tok} : w.map lower = [114, 101, 112, 108, 97, 99, 101] → find pre w = none → Derives pre .or a s →
      Derives pre .or b t → Derives pre .or c u → Derives pre .primary (.replace a b c .nil) (ident w :: lparen :: (s ++ comma :: (t ++ comma :: (u ++ [rparen]))))
  | replace4 {w : Text} {a b c d : SCond} {s t u v : List Tok} : w.map lower = [114, 101, 112, 108, 97, 99, 101] → find pre w = none → Derives pre .or a s →
      Derives pre .or b t → Derives pre .or c u → Derives pre .or d v →
      Derives pre .primary (.replace a b c d) (ident w :: lparen :: (s ++ comma :: (t ++ comma :: (u ++ comma :: (v ++ [rparen])))))
  | isIn {w : Text} {a r : SCond} {s t : List Tok} : w.map lower = [105, 110] → find pre w = none → Derives pre .or a s → Derives pre .args r t →
      Derives pre .primary (.isIn a r) (ident w :: lparen :: (s ++ comma :: (t ++ [rparen])))
  | call0 {f : Text} : 92 ∉ f → Derives pre .primary (.call f .nil) [⟨.iri, f⟩, lparen, rparen]
  | call {f : Text} {r : SCond} {s : List Tok} : 92 ∉ f → Derives pre .args r s → Derives pre .primary (.call f r) (⟨.iri, f⟩ :: lparen :: (s ++ [rparen]))
  | args1 {a : SCond} {s : List Tok} : Derives pre .or a s → Derives pre .args (.arg a .nil) s
  | args {a r : SCond} {s t : List Tok} : Derives pre .or a s → Derives pre .args r t → Derives pre .args (.arg a r) (s ++ comma :: t)

/-- What can follow FILTER: a condition in brackets, or a function. -/
inductive Constraint (pre : List (Text × Text)) : SCond → List Tok → Prop
  | brackets {c : SCond} {s : List Tok} : Derives pre .or c s → Constraint pre c (lparen :: (s ++ [rparen]))
  | function {c : SCond} {w : Text} {s : List Tok} : Derives pre .primary c (ident w :: lparen :: s) → Constraint pre c (ident w :: lparen :: s)
  | call {c : SCond} {f : Text} {s : List Tok} : Derives pre .primary c (⟨.iri, f⟩ :: lparen :: s) → Constraint pre c (⟨.iri, f⟩ :: lparen :: s)

/-- The tokens of `PREFIX n: <i>`, for each prefix; `ws` are the spellings of the word. -/
def prefixToks (ws : List Text) (l : List (Text × Text)) : List Tok :=
  (ws.zip l).flatMap fun x => [ident x.1, ident x.2.1, colon, ⟨.iri, x.2.2⟩]

/-- A point if `d`. -/
def point (d : Bool) : List Tok := if d then [dot] else []

end Trident.Sparql.Parse.Spec
