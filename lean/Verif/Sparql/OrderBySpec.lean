import Verif.Sparql.Lexer
/-!
# What ORDER BY asks

The order of rows by some of their cells.  Texts are compared byte by byte (`<` on lists).
-/
namespace Trident.Sparql.OrderBy.Spec

/-- A cell of a row: it has no value, a number or a text. -/
inductive Cell
  | unbound
  | number (n : Nat)
  | text (t : List Nat)
  deriving DecidableEq, Repr

/-- Cells without value come first; numbers by value, texts by their bytes. -/
def Cell.lt : Cell → Cell → Prop
  | .unbound, .unbound => False
  | .unbound, _ => True
  | .number a, .number b => a < b
  | .number _, .text _ => True
  | .text a, .text b => a < b
  | _, _ => False

/-- The row `a` comes before the row `b`: the first of the cells that are different decides.  The keys are the numbers of the cells, with `true` for a descending order. -/
def Before : List (Nat × Bool) → (Nat → Cell) → (Nat → Cell) → Prop
  | [], _, _ => False
  | (i, desc) :: ks, a, b => (if desc then (b i).lt (a i) else (a i).lt (b i)) ∨ (a i = b i ∧ Before ks a b)

end Trident.Sparql.OrderBy.Spec
