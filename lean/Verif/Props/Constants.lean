import Verif.Sparql.Constants
/-!
# C81: a constant in a query is the term that was written
-/
namespace Trident.Sparql.Parse

open Lex

/-- An RDF term. -/
inductive Term
  | iri (v : Text)
  | blank (b : Text)
  | plain (v : Text)
  | lang (v tag : Text)
  | typed (v dt : Text)
  deriving DecidableEq

/-- The text of a term as it is stored: `<v>`, `_:b`, `"v"`, `"v"@t`, `"v"^^<d>`. -/
def Term.text : Term → Text
  | .iri v => 60 :: (v ++ [62])
  | .blank b => 95 :: 58 :: b
  | .plain v => 34 :: (v ++ [34])
  | .lang v t => 34 :: (v ++ 34 :: 64 :: t)
  | .typed v d => 34 :: (v ++ 34 :: 94 :: 94 :: 60 :: (d ++ [62]))

/-- The term that an element of a query denotes. -/
def denotes : Elem → Option Term
  | .var _ => none
  | .iri v => some (.iri v)
  | .lit v .none => some (.plain v)
  | .lit v (.lang t) => some (.lang v t)
  | .lit v (.type d) => some (.typed v d)

/-- A dictionary contains texts of terms. -/
def Stores (dict : GetNumber) : Prop := ∀ t i, dict t = some i → ∃ term : Term, t = term.text

/-- The first byte of what is written: not `<`, `_` or a quote. -/
def PlainStart (v : Text) : Prop := ∀ c ∈ v.head?, c ≠ 60 ∧ c ≠ 95 ∧ c ≠ 34

theorem not_stored {dict : GetNumber} (hd : Stores dict) {v : Text} (hv : PlainStart v) : dict v = none := by
  match h : dict v with
  | none => rfl
  | some i =>
    obtain ⟨t, rfl⟩ := hd v i h
    cases t <;> exact absurd rfl (by first | exact (hv _ rfl).1 | exact (hv _ rfl).2.1 | exact (hv _ rfl).2.2)

/-- C81: an IRI in a query is the stored IRI with this text, or it is unknown. -/
theorem C81_iri (dict : GetNumber) (v : Text) : encode dict (.iri v) = (dict (Term.iri v).text).map (·, true) := by
  simp only [encode, lookup, Term.text, if_true]

/-- The datatypes that queries can name. -/
def numericTypes : List Text := [xsdInteger, xsdDecimal, xsdDouble, xsdBoolean, xsdDate]

/-- C81: a literal without language, with no type or one of the types integer, decimal, double, boolean and date, is the stored literal with this text and type,
or it is unknown.  Missing: texts that begin with `<`, `_` or a quote, language tags and other types, see below. -/
theorem C81_literal_partial {dict : GetNumber} (hd : Stores dict) {e : Elem} {t : Term} (he : denotes e = some t)
    (hk : (∃ v, e = .lit v .none ∧ PlainStart v) ∨ ∃ v dt, e = .lit v (.type dt) ∧ PlainStart v ∧ dt ∈ numericTypes) :
    encode dict e = (dict t.text).map (·, true) := by
  rcases hk with ⟨v, rfl, hv⟩ | ⟨v, dt, rfl, hv, hdt⟩
  · cases he
    simp only [encode, lookup, not_stored hd hv]
    rfl
  · cases he
    simp only [numericTypes, List.mem_cons, List.not_mem_nil, or_false] at hdt
    have key : ∀ ty, literalType dict dt = some ty → ty ≠ .uri → typeIri ty = dt → dt ≠ [] → encode dict (.lit v (.type dt)) = (dict (Term.typed v dt).text).map (·, true) := by
      intro ty h1 h2 h3 h4
      simp only [encode, h1, lookup, if_neg h2, not_stored hd hv, h3, Option.bind_some]
      rw [if_pos h4]
      simp [Term.text]
    rcases hdt with rfl | rfl | rfl | rfl | rfl
    · exact key .integer (by rfl) (by decide) rfl (by decide +kernel)
    · exact key .decimal (by rfl) (by decide) rfl (by decide +kernel)
    · exact key .double (by rfl) (by decide) rfl (by decide +kernel)
    · exact key .boolean (by rfl) (by decide) rfl (by decide +kernel)
    · exact key .date (by rfl) (by decide) rfl (by decide +kernel)

/-! ## Examples -/

/-- A dictionary with these terms. -/
def ofTerms (l : List Term) : GetNumber := fun t => l.findIdx? fun x => x.text == t

theorem ofTerms_stores (l : List Term) : Stores (ofTerms l) := by
  intro t i h
  unfold ofTerms at h
  rw [List.findIdx?_eq_some_iff_getElem] at h
  obtain ⟨h1, h2, -⟩ := h
  exact ⟨l[i], (beq_iff_eq.1 h2).symm⟩

def terms : List Term := [.iri (str "http://a"), .plain (str "5"), .typed (str "5") xsdInteger, .blank (str "b")]

/-- The literal and the integer with the same text are different constants. -/
example : encode (ofTerms terms) (.lit (str "5") .none) = some (1, true) ∧ encode (ofTerms terms) (.lit (str "5") (.type xsdInteger)) = some (2, true)
    ∧ encode (ofTerms terms) (.iri (str "http://a")) = some (0, true) ∧ encode (ofTerms terms) (.iri (str "http://b")) = none := by decide +kernel

example := C81_literal_partial (ofTerms_stores terms) (e := .lit (str "5") (.type xsdInteger)) rfl (.inr ⟨_, _, rfl, by rintro c ⟨⟩; decide, by decide +kernel⟩)

/-! ## Violations -/

/-- A literal with the text of an IRI or of a blank node is taken for that IRI or blank node. -/
theorem C81_literal_iri_violated : ∃ (l : List Term) (e : Elem) (t u : Term), denotes e = some t ∧ t ≠ u ∧ encode (ofTerms l) e = (ofTerms l u.text).map (·, true)
    ∧ (encode (ofTerms l) e).isSome = true :=
  ⟨[.iri (str "http://a"), .plain (str "<http://a>")], .lit (str "<http://a>") .none, .plain (str "<http://a>"), .iri (str "http://a"), by decide +kernel⟩

theorem C81_literal_blank_violated : ∃ (l : List Term) (e : Elem) (t u : Term), denotes e = some t ∧ t ≠ u ∧ encode (ofTerms l) e = (ofTerms l u.text).map (·, true)
    ∧ (encode (ofTerms l) e).isSome = true :=
  ⟨terms, .lit (str "_:b") .none, .plain (str "_:b"), .blank (str "b"), by decide +kernel⟩

/-- Literals with a language are not found although they are stored; if the tag is stored as a term, the literal without language is found instead. -/
theorem C81_language_violated :
    (encode (ofTerms [.lang (str "chat") (str "fr")]) (.lit (str "chat") (.lang (str "fr"))) = none
      ∧ (ofTerms [.lang (str "chat") (str "fr")] (Term.lang (str "chat") (str "fr")).text).isSome = true)
    ∧ encode (ofTerms [.lang (str "chat") (str "fr"), .plain (str "chat"), .plain (str "fr")]) (.lit (str "chat") (.lang (str "fr"))) = some (1, true) := by decide +kernel

/-- A language is never found in a dictionary of terms: what is returned is never the literal with the language. -/
theorem C81_language_never_violated {dict : GetNumber} (hd : Stores dict) (hinj : ∀ s t i, dict s = some i → dict t = some i → s = t) {v tag : Text} (hv : PlainStart v)
    (i : Nat) (h : encode dict (.lit v (.lang tag)) = some (i, true)) : dict (Term.lang v tag).text ≠ some i := by
  intro hl
  have hlook : lookup dict v .customLanguage = dict (34 :: (v ++ [34])) := by
    simp only [lookup, not_stored hd hv, typeIri]
    rfl
  simp only [encode] at h
  rw [hlook] at h
  match ht : lookup dict tag .literal with
  | none => rw [ht] at h; cases h
  | some j =>
    rw [ht] at h
    match hq : dict (34 :: (v ++ [34])) with
    | none => rw [hq] at h; cases h
    | some k =>
      rw [hq] at h
      cases h
      have := hinj _ _ i hl hq
      simp only [Term.text, List.cons.injEq, true_and] at this
      have := List.append_cancel_left this
      simp at this

/-- Other types are not found although they are stored, unless the type itself is a term; then the literal without type is found. `xsd:string` also finds only
the literal without type. -/
theorem C81_type_violated :
    (encode (ofTerms [.typed (str "1.5") (str "http://www.w3.org/2001/XMLSchema#float")]) (.lit (str "1.5") (.type (str "http://www.w3.org/2001/XMLSchema#float"))) = none)
    ∧ encode (ofTerms [.typed (str "x") (str "http://t"), .plain (str "x"), .iri (str "http://t")]) (.lit (str "x") (.type (str "http://t"))) = some (1, true)
    ∧ encode (ofTerms [.typed (str "x") xsdString]) (.lit (str "x") (.type xsdString)) = none := by decide +kernel

end Trident.Sparql.Parse
