import Verif.Join.Hash
/-! # What a join is -/
namespace Trident.Join

/-- Values of variables. -/
abbrev Binding := List (Nat × Nat)

/-- All ways to take one row of each input, as lists of variables with values. -/
def combos : List Child → List Binding
  | [] => [[]]
  | c :: cs => c.rows.flatMap fun r => (combos cs).map fun b => c.fields.zip r ++ b

/-- No variable has two values. -/
def consistent (b : Binding) : Bool := b.all fun x => b.all fun y => decide (x.1 = y.1 → x.2 = y.2)

/-- The value of a variable. -/
def value (b : Binding) (v : Nat) : Nat := (b.lookup v).getD 0

/-- The combinations of rows that agree on the variables they share; with multiplicities. -/
def solutions (cs : List Child) : List Binding := (combos cs).filter consistent

/-- The variables of the inputs, each once. -/
def varsOf (cs : List Child) : List Nat := cs.foldl (fun vs c => vs ++ c.fields.filter fun v => decide (v ∉ vs)) []

/-- An input as the operators give it: distinct columns, rows of that length, and no value that the hash map reserves. -/
structure Child.Ok (c : Child) : Prop where
  nodup : c.fields.Nodup
  rows : ∀ r ∈ c.rows, r.length = c.fields.length
  vals : ∀ r ∈ c.rows, ∀ a ∈ r, a ≠ 2 ^ 64 - 1

/-- The columns of the child that the rows have already. -/
def common (cur fs : List Nat) : List Nat := fs.filter fun v => decide (v ∈ cur)

/-- The other columns. -/
def fresh (cur fs : List Nat) : List Nat := fs.filter fun v => decide (v ∉ cur)

/-- Each child shares one or two columns with those before it. -/
def Joinable : List Nat → List Child → Prop
  | _, [] => True
  | cur, c :: cs => ((common cur c.fields).length = 1 ∨ (common cur c.fields).length = 2) ∧ Joinable (cur ++ fresh cur c.fields) cs

/-- The projected columns of the last child are its first new ones. -/
def ProjFits (proj : List Nat) : List Nat → List Child → Prop
  | _, [] => True
  | cur, [c] => proj = [] ∨ ((∀ v ∈ proj, v ∈ cur ++ fresh cur c.fields) ∧ (fresh cur c.fields).filter (fun v => decide (v ∈ proj)) <+: fresh cur c.fields)
  | cur, c :: d :: cs => ProjFits proj (cur ++ fresh cur c.fields) (d :: cs)

end Trident.Join
