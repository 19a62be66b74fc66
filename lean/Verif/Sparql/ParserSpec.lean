import Verif.Sparql.ExprSpec
import Verif.Sparql.Parser
/-!
# What a query says

`Pat` is a group graph pattern as a user writes it, with names of variables.  `toks` are its tokens, and `meaning` is what it consists of.
-/
namespace Trident.Sparql.Parse.Spec

open Lex Parse

/-- A group graph pattern.  `block s p o more dot rest`: a subject with a predicate and an object, then `; p o` or `, o`, and a point or none. `alt g rest` is
an alternative of a UNION and only occurs there.  `filter c ts dot rest`: the condition `c`, which is written with the tokens `ts`. -/
inductive Pat
  | nil
  | block (s p o : SElem) (more : List (Option SElem × SElem)) (dot : Bool) (rest : Pat)
  | optional (g rest : Pat)
  | union (g alts rest : Pat)
  | alt (g rest : Pat)
  | minus (g rest : Pat)
  | values (vars : List Text) (rows : List (List SElem)) (rest : Pat)
  | nested (g rest : Pat)
  | filter (c : SCond) (ts : List Tok) (dot : Bool) (rest : Pat)

def moreToks : List (Option SElem × SElem) → List Tok
  | [] => []
  | (some p, o) :: l => semicolon :: (p.toks ++ (o.toks ++ moreToks l))
  | (none, o) :: l => comma :: (o.toks ++ moreToks l)

/-- How the words of the language are written: in small or capital letters. -/
structure Spelling where
  optional : Text
  union : Text
  minus : Text
  values : Text
  filter : Text
  hoptional : optional.map lower = kOptional
  hunion : union.map lower = kUnion
  hminus : minus.map lower = kMinus
  hvalues : values.map lower = kValues
  hfilter : filter.map lower = kFilter

/-- The tokens. -/
def Pat.toks (K : Spelling) : Pat → List Tok
  | .nil => []
  | .block s p o more d rest => s.toks ++ (p.toks ++ (o.toks ++ (moreToks more ++ ((if d then [Spec.dot] else []) ++ rest.toks K))))
  | .optional g rest => ident K.optional :: lcurly :: (g.toks K ++ rcurly :: rest.toks K)
  | .union g alts rest => lcurly :: (g.toks K ++ rcurly :: (alts.toks K ++ rest.toks K))
  | .alt g rest => ident K.union :: lcurly :: (g.toks K ++ rcurly :: rest.toks K)
  | .minus g rest => ident K.minus :: lcurly :: (g.toks K ++ rcurly :: rest.toks K)
  | .values vars rows rest =>
    ident K.values :: lparen :: (vars.map (Tok.mk .variable) ++ rparen :: lcurly :: (rowToks rows ++ rcurly :: rest.toks K))
  | .nested g rest => lcurly :: (g.toks K ++ rcurly :: rest.toks K)
  | .filter _ ts d rest => ident K.filter :: (ts ++ (point d ++ rest.toks K))

/-- The triples of a subject. -/
def moreTriples (pre : List (Text × Text)) (num : Text → Nat) (s : Elem) : Elem → List (Option SElem × SElem) → List Triple
  | _, [] => []
  | _, (some p, o) :: l => (s, p.meaning pre num, o.meaning pre num) :: moreTriples pre num s (p.meaning pre num) l
  | p, (none, o) :: l => (s, p, o.meaning pre num) :: moreTriples pre num s p l

/-- Two groups together. -/
def append : Group → Group → Group
  | .mk p o u m v f, .mk p' o' u' m' v' f' => .mk (p ++ p') (o ++ o') (u ++ u') (m ++ m') (v ++ v') (f ++ f')

mutual
/-- What a group consists of: its triples, optional parts, unions, subtracted parts, values and conditions, each in the order of the text. -/
def Pat.meaning (pre : List (Text × Text)) (num : Text → Nat) : Pat → Group
  | .nil => Group.empty
  | .block s p o more _ rest =>
    append (.mk ((s.meaning pre num, p.meaning pre num, o.meaning pre num) :: moreTriples pre num (s.meaning pre num) (p.meaning pre num) more) [] [] [] [] [])
      (rest.meaning pre num)
  | .optional g rest => append (.mk [] [g.meaning pre num] [] [] [] []) (rest.meaning pre num)
  | .union g alts rest => append (.mk [] [] [g.meaning pre num :: alts.alternatives pre num] [] [] []) (rest.meaning pre num)
  | .alt _ _ => Group.empty
  | .minus g rest => append (.mk [] [] [] [g.meaning pre num] [] []) (rest.meaning pre num)
  | .values vars rows rest => append (.mk [] [] [] [] [(vars.map num, (rows.flatten.map fun e => e.meaning pre num))] []) (rest.meaning pre num)
  | .nested g rest => append (g.meaning pre num) (rest.meaning pre num)
  | .filter c _ _ rest => append (.mk [] [] [] [] [] [c.meaning pre num]) (rest.meaning pre num)
/-- The alternatives of a UNION after the first. -/
def Pat.alternatives (pre : List (Text × Text)) (num : Text → Nat) : Pat → List Group
  | .alt g rest => g.meaning pre num :: rest.alternatives pre num
  | _ => []
end

/-- The words that the parser looks for at the start of a pattern. -/
def words : List Text := [kSelect, kOptional, kFilter, kBind, kMinus, kUnion]

/-- A subject does not begin with one of the words, and does not begin with an identifier if no point precedes it. -/
def Start (tail : Bool) (e : SElem) : Prop := ∀ t ∈ e.toks.head?, t.raw.map lower ∉ words ∧ (tail = true → t.kind ≠ .identifier)

/-- The variables of the triples of a group and of the groups in braces within it: every solution of the group binds them. -/
def Pat.bound : Pat → List Text
  | .nil => []
  | .block s p o more _ rest => s.vars ++ p.vars ++ o.vars ++ (more.flatMap fun x => (x.1.map SElem.vars).getD [] ++ x.2.vars) ++ rest.bound
  | .optional _ rest => rest.bound
  | .union _ _ rest => rest.bound
  | .alt _ _ => []
  | .minus _ rest => rest.bound
  | .values _ _ rest => rest.bound
  | .nested g rest => g.bound ++ rest.bound
  | .filter _ _ _ rest => rest.bound

/-- Nothing is subtracted and no values are given on the first level; conditions there are about the variables in `B`. -/
def Pat.MergeableIn (B : List Text) : Pat → Prop
  | .nil => True
  | .block _ _ _ _ _ rest => rest.MergeableIn B
  | .optional _ rest => rest.MergeableIn B
  | .union _ _ rest => rest.MergeableIn B
  | .alt _ _ => False
  | .minus _ _ => False
  | .values _ _ _ => False
  | .nested g rest => g.MergeableIn g.bound ∧ rest.MergeableIn B
  | .filter c _ _ rest => (∀ x ∈ c.vars, x ∈ B) ∧ rest.MergeableIn B

/-- A group in braces that means the same without the braces: nothing is subtracted, no values are given, and its conditions are about what its own triples bind. -/
def Pat.Mergeable (p : Pat) : Prop := p.MergeableIn p.bound

mutual
/-- The patterns that are read as written.  `tail`: the pattern before has no point.  VALUES must follow triples without a point. -/
def Pat.Ok (pre : List (Text × Text)) : Bool → Pat → Prop
  | _, .nil => True
  | tail, .block s p o more d rest => s.Ok pre ∧ p.Ok pre ∧ o.Ok pre ∧ (∀ x ∈ more, (∀ p ∈ x.1, p.Ok pre) ∧ x.2.Ok pre) ∧ Start tail s ∧ rest.Ok pre (!d)
  | tail, .optional g rest => g.Ok pre false ∧ rest.Ok pre tail
  | _, .union g alts rest => g.Ok pre false ∧ alts.AltsOk pre ∧ (∃ g' r, alts = .alt g' r) ∧ rest.Ok pre false
  | _, .alt _ _ => False
  | tail, .minus g rest => g.Ok pre false ∧ rest.Ok pre tail
  | tail, .values vars rows rest => tail = true ∧ (∀ r ∈ rows, r.length = vars.length ∧ ∀ e ∈ r, e.Ok pre) ∧ rest.Ok pre true
  | _, .nested g rest => g.Ok pre false ∧ g.Mergeable ∧ rest.Ok pre false
  | tail, .filter c ts _ rest => Constraint pre c ts ∧ rest.Ok pre tail
def Pat.AltsOk (pre : List (Text × Text)) : Pat → Prop
  | .nil => True
  | .alt g rest => g.Ok pre false ∧ rest.AltsOk pre
  | _ => False
end

/-- The variables of a pattern. -/
def Pat.vars : Pat → List Text
  | .nil => []
  | .block s p o more _ rest => s.vars ++ p.vars ++ o.vars ++ (more.flatMap fun x => (x.1.map SElem.vars).getD [] ++ x.2.vars) ++ rest.vars
  | .optional g rest => g.vars ++ rest.vars
  | .union g alts rest => g.vars ++ alts.vars ++ rest.vars
  | .alt g rest => g.vars ++ rest.vars
  | .minus g rest => g.vars ++ rest.vars
  | .values vars rows rest => vars ++ rows.flatten.flatMap SElem.vars ++ rest.vars
  | .nested g rest => g.vars ++ rest.vars
  | .filter c _ _ rest => c.vars ++ rest.vars

end Trident.Sparql.Parse.Spec
