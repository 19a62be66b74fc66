import Verif.Sparql.QueryTextSpec
import Verif.Sparql.FilterTextProofs
import Verif.Sparql.PlanGen
/-!
# What the theorems about whole queries assume

`Loaded` relates a list of triples of RDF terms to the triples of ids in the store.  `GroupOk` are the groups that are treated.
-/
namespace Trident.Sparql.Parse

open Lex Spec
open Select (Lib)

/-- A triple of terms is stored as a triple of ids. -/
def StoredAs (get : GetNumber) (t : Term × Term × Term) (d : PlanGen.Triple) : Prop :=
  (t.1.Ok ∧ get t.1.text = some d.1) ∧ (t.2.1.Ok ∧ get t.2.1.text = some d.2.1) ∧ t.2.2.Ok ∧ get t.2.2.text = some d.2.2

/-- The triples of the store are the triples of terms. -/
inductive Loaded (get : GetNumber) : List (Term × Term × Term) → List PlanGen.Triple → Prop
  | nil : Loaded get [] []
  | cons {t : Term × Term × Term} {d : PlanGen.Triple} {graph : List (Term × Term × Term)} {db : List PlanGen.Triple} :
      StoredAs get t d → Loaded get graph db → Loaded get (t :: graph) (d :: db)

variable {F : Type}

/-- What is assumed of a group: it has only triple patterns, at least one and at most 64, none with the same variable twice, and conditions that are treated, of variables of
the patterns; the constants can be looked up, and the parts of the conditions have a value whenever their variables have values that single patterns give them. -/
structure GroupOk (P : Lib F) (get : GetNumber) (graph : List (Term × Term × Term)) (pre : List (Text × Text)) (p : Pat) : Prop where
  ok : p.Ok pre false
  flat : p.Flat
  nonempty : p.triples ≠ []
  few : p.triples.length ≤ 64
  once : ∀ t ∈ p.triples, (tripleVars t).Nodup
  constants : ∀ t ∈ p.triples, ∀ e ∈ [t.1, t.2.1, t.2.2], ∀ u, e.constant pre = some u → u.Const get
  treated : ∀ c ∈ p.conds, c.Treated
  bound : ∀ c ∈ p.conds, ∀ x ∈ c.vars, ∃ t ∈ p.triples, x ∈ tripleVars t
  condConstants : ∀ c ∈ p.conds, ∀ u ∈ c.constants pre, u.Const get
  needed : ∀ c ∈ p.conds, ∀ u ∈ c.needed pre, (get u.text).isSome = true
  values : ∀ c ∈ p.conds, ∀ d ∈ c.conjuncts, ∀ σ : Sol, (∀ x ∈ d.vars, ∃ t, σ x = some t ∧ SeenIn pre graph p.triples x t) → (d.truth P pre σ).isSome = true

end Trident.Sparql.Parse
