import Verif.Sparql.Elem
/-!
# What an element of a pattern says

`SElem` is an element as a user writes it, with names of variables.  `toks` are its tokens, and `meaning` is what it stands for.
-/
namespace Trident.Sparql.Parse.Spec

open Lex Parse

/-- What is written in a triple pattern. -/
inductive SElem
  | var (name : Text)
  | iri (v : Text)
  | a
  | name (pre loc : Text)
  | lit (v : Text)
  | lang (v tag : Text)
  | typed (v dt : Text)
  | typedName (v pre loc : Text)
  deriving DecidableEq

def colon : Tok := ⟨.colon, [58]⟩
def ident (t : Text) : Tok := ⟨.identifier, t⟩
def lcurly : Tok := ⟨.lcurly, [123]⟩
def rcurly : Tok := ⟨.rcurly, [125]⟩
def lparen : Tok := ⟨.lparen, [40]⟩
def rparen : Tok := ⟨.rparen, [41]⟩
def dot : Tok := ⟨.dot, [46]⟩
def comma : Tok := ⟨.comma, [44]⟩
def semicolon : Tok := ⟨.semicolon, [59]⟩
def at_ : Tok := ⟨.at, [64]⟩
def hats : Tok := ⟨.type, [94, 94]⟩

/-- How it is written: `?x`, `<i>`, `a`, `p:l`, `"v"`, `"v"@t`, `"v"^^<d>`, `"v"^^p:l` -/
def SElem.toks : SElem → List Tok
  | .var x => [⟨.variable, x⟩]
  | .iri v => [⟨.iri, v⟩]
  | .a => [ident [97]]
  | .name p l => [ident p, colon, ident l]
  | .lit v => [⟨.string, v⟩]
  | .lang v t => [⟨.string, v⟩, at_, ident t]
  | .typed v d => [⟨.string, v⟩, hats, ⟨.iri, d⟩]
  | .typedName v p l => [⟨.string, v⟩, hats, ident p, colon, ident l]

/-- What it stands for; `pre` are the declared prefixes and `num` numbers the variables. -/
def SElem.meaning (pre : List (Text × Text)) (num : Text → Nat) : SElem → Elem
  | .var x => .var (num x)
  | .iri v => .iri v
  | .a => .iri rdfType
  | .name p l => .iri ((find pre p).getD [] ++ l)
  | .lit v => .lit v .none
  | .lang v t => .lit v (.lang t)
  | .typed v d => .lit v (.type d)
  | .typedName v p l => .lit v (.type ((find pre p).getD [] ++ l))

/-- No escapes, and only declared prefixes; a prefix is not called `a`. -/
def SElem.Ok (pre : List (Text × Text)) : SElem → Prop
  | .var _ => True
  | .iri v => 92 ∉ v
  | .a => True
  | .name p l => (find pre p).isSome ∧ p ≠ [97] ∧ 92 ∉ l
  | .lit v => 92 ∉ v
  | .lang v _ => 92 ∉ v
  | .typed v d => 92 ∉ v ∧ 92 ∉ d
  | .typedName v p l => 92 ∉ v ∧ (find pre p).isSome ∧ 92 ∉ l

/-- The variables of an element. -/
def SElem.vars : SElem → List Text
  | .var x => [x]
  | _ => []

def elemToks : List SElem → List Tok
  | [] => []
  | e :: l => e.toks ++ elemToks l

def rowToks : List (List SElem) → List Tok
  | [] => []
  | r :: l => lparen :: (elemToks r ++ rparen :: rowToks l)

end Trident.Sparql.Parse.Spec
