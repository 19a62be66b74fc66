import Verif.Spec
/-!
# What the methods of the Python module should return

Independent of the model of the module: lists of ids, of pairs and of triples, complete, without repetitions and in order.
-/
namespace Trident.Python
open Trident

/-- The list has exactly the ids with the property, each once and in increasing order. -/
def Lists (l : List Int) (P : Int → Prop) : Prop := l.Pairwise (· < ·) ∧ ∀ x, x ∈ l ↔ P x

/-- The same for pairs, in lexicographic order. -/
def Lists2 (l : List (Int × Int)) (P : Int → Int → Prop) : Prop :=
  (l.Pairwise fun a b => a.1 < b.1 ∨ (a.1 = b.1 ∧ a.2 < b.2)) ∧ ∀ x y, (x, y) ∈ l ↔ P x y

/-- The same for triples of numbers, in lexicographic order. -/
def Lists3 (l : List (Int × Int × Int)) (P : Int → Int → Int → Prop) : Prop :=
  (l.Pairwise fun a b => a.1 < b.1 ∨ (a.1 = b.1 ∧ (a.2.1 < b.2.1 ∨ (a.2.1 = b.2.1 ∧ a.2.2 < b.2.2)))) ∧ ∀ x y z, (x, y, z) ∈ l ↔ P x y z

/-- A loop returns the list, given enough steps. -/
def Gives {α : Type} (f : Nat → Option α) (l : α) : Prop := ∃ n, ∀ fuel, n ≤ fuel → f fuel = some l

/-- The number of triples with the property. -/
def count (ts : List Triple) (P : Triple → Bool) : Int := (ts.countP P : Nat)

end Trident.Python
