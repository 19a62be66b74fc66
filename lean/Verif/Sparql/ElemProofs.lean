import Verif.Sparql.ElemSpec
/-!
# Proofs about the parser of elements
-/
namespace Trident.Sparql.Parse

open Lex Spec

variable {pre : List (Text × Text)}

/-! ## Names of variables -/

/-- The names of `N` have the same numbers in `N'`. -/
def Ext (N N' : List (Text × Nat)) : Prop := ∀ x i, find N x = some i → find N' x = some i

theorem Ext.refl (N : List (Text × Nat)) : Ext N N := fun _ _ h => h
theorem Ext.trans {A B C : List (Text × Nat)} (h : Ext A B) (k : Ext B C) : Ext A C := fun x i e => k x i (h x i e)

/-- The number of a name. -/
def num (N : List (Text × Nat)) (x : Text) : Nat := (find N x).getD 0

/-- Different names have different numbers, and new numbers are greater. -/
def Inv (s : St) : Prop := (∀ x i, find s.names x = some i → i < s.count) ∧ ∀ x y i, find s.names x = some i → find s.names y = some i → x = y

/-- A step of the parser that read the variables `vars`. -/
structure Reads (s s' : St) (vars : List Text) : Prop where
  ext : Ext s.names s'.names
  inv : Inv s → Inv s'
  declared : ∀ x ∈ vars, (find s'.names x).isSome
  only : ∀ p ∈ s'.names, p ∈ s.names ∨ p.1 ∈ vars
  nodup : (s.names.map (·.1)).Nodup → (s'.names.map (·.1)).Nodup

theorem Reads.refl (s : St) : Reads s s [] := ⟨Ext.refl _, id, (fun _ h => by cases h), fun _ h => .inl h, id⟩

theorem isSome_ext {N N' : List (Text × Nat)} (h : Ext N N') {x : Text} (k : (find N x).isSome) : (find N' x).isSome := by
  obtain ⟨i, hi⟩ := Option.isSome_iff_exists.1 k
  rw [h x i hi]; rfl

theorem Reads.trans {a b c : St} {v w : List Text} (h : Reads a b v) (k : Reads b c w) : Reads a c (v ++ w) := by
  refine ⟨h.ext.trans k.ext, fun i => k.inv (h.inv i), ?_, ?_, fun n => k.nodup (h.nodup n)⟩
  · intro x hx
    rcases List.mem_append.1 hx with hx | hx
    · exact isSome_ext k.ext (h.declared x hx)
    · exact k.declared x hx
  · intro p hp
    rcases k.only p hp with hp | hp
    · exact (h.only p hp).imp id fun h => List.mem_append_left _ h
    · exact .inr (List.mem_append_right _ hp)

theorem Reads.same {a b c : St} {v : List Text} (h : Reads a b v) (hn : c.names = b.names) (hc : c.count = b.count) : Reads a c v := by
  refine ⟨hn ▸ h.ext, fun i => ?_, hn ▸ h.declared, hn ▸ h.only, hn ▸ h.nodup⟩
  have := h.inv i
  unfold Inv at *
  rw [hn, hc]; exact this

theorem Reads.from {a b c : St} {v : List Text} (h : Reads b c v) (hn : b.names = a.names) (hc : b.count = a.count) : Reads a c v := by
  refine ⟨hn ▸ h.ext, fun i => h.inv ?_, h.declared, hn ▸ h.only, hn ▸ h.nodup⟩
  unfold Inv at *
  rw [hn, hc]; exact i

theorem Reads.of_eq {a b : St} {v w : List Text} (h : Reads a b v) (e : v = w) : Reads a b w := e ▸ h

theorem find_append {α : Type} (l : List (Text × α)) (k : Text) (v : α) (x : Text) :
    find (l ++ [(k, v)]) x = match find l x with | some i => some i | none => if k = x then some v else none := by
  unfold find
  rw [List.find?_append]
  cases h : l.find? fun p => p.1 == x with
  | some p => simp
  | none =>
    by_cases hk : k = x
    · simp [hk]
    · simp [hk]

theorem nameVariable_spec (s : St) (x : Text) :
    ∃ i s', nameVariable s x = (i, s') ∧ s'.toks = s.toks ∧ find s'.names x = some i ∧ Reads s s' [x] := by
  unfold nameVariable
  match h : find s.names x with
  | some i => exact ⟨i, s, rfl, rfl, h, Ext.refl _, id, (fun y hy => by rw [List.mem_singleton.1 hy, h]; rfl), fun _ h => .inl h, id⟩
  | none =>
    have hx : find (s.names ++ [(x, s.count)]) x = some s.count := by rw [find_append, h]; simp
    refine ⟨s.count, _, rfl, rfl, hx, ?_, ?_, ?_, ?_, ?_⟩
    · intro y i hy
      simp only
      rw [find_append, hy]
    · intro ⟨h1, h2⟩
      constructor
      · intro y i hy
        simp only at hy ⊢
        rw [find_append] at hy
        cases hf : find s.names y with
        | some j => rw [hf] at hy; cases hy; exact Nat.lt_succ_of_lt (h1 y _ hf)
        | none =>
          rw [hf] at hy
          simp only at hy
          split at hy
          · cases hy; exact Nat.lt_succ_self _
          · cases hy
      · intro y z i hy hz
        simp only at hy hz
        rw [find_append] at hy hz
        cases hf : find s.names y with
        | some j =>
          rw [hf] at hy
          cases hy
          have := h1 y _ hf
          cases hg : find s.names z with
          | some k => rw [hg] at hz; cases hz; exact h2 y z _ hf hg
          | none =>
            rw [hg] at hz
            simp only at hz
            split at hz
            · cases hz; omega
            · cases hz
        | none =>
          rw [hf] at hy
          simp only at hy
          split at hy
          · cases hy
            rename_i e1
            cases hg : find s.names z with
            | some k => rw [hg] at hz; cases hz; have := h1 z _ hg; omega
            | none =>
              rw [hg] at hz
              simp only at hz
              split at hz
              · rename_i e2; exact e1.symm.trans e2
              · cases hz
          · cases hy
    · intro y hy; rw [List.mem_singleton.1 hy]; simp only; rw [hx]; rfl
    · intro p hp
      rcases List.mem_append.1 hp with hp | hp
      · exact .inl hp
      · rw [List.mem_singleton.1 hp]; exact .inr (by simp)
    · intro hn
      simp only [List.map_append, List.map_cons, List.map_nil]
      refine List.nodup_append.2 ⟨hn, by simp, ?_⟩
      intro a ha b hb
      rw [List.mem_singleton.1 hb]
      rintro rfl
      obtain ⟨p, hp, e⟩ := List.mem_map.1 ha
      simp only [find, Option.map_eq_none_iff, List.find?_eq_none] at h
      exact h p hp (by simp [e])

/-! ## Elements -/

theorem unescape_plain : ∀ (t : Text), 92 ∉ t → unescape t = t
  | [], _ => rfl
  | c :: r, h => by
    have hc : c ≠ 92 := fun e => h (by simp [e])
    rw [unescape]
    · rw [unescape_plain r fun hm => h (List.mem_cons_of_mem _ hm)]
    · intro e _; exact hc e
    · intro d r' e; exact absurd e hc

theorem literalValue_plain (t : Text) (h : 92 ∉ t) : literalValue t = t := by
  unfold literalValue
  rw [unescape_plain t h]
  simp [h]

theorem pop_cons {s : St} {t : Tok} {r : List Tok} (h : s.toks = t :: r) : pop s = (t, { s with toks := r }) := by
  unfold pop; rw [h]

/-- What follows is no language tag and no type. -/
def Stops (l : List Tok) : Prop := ∀ t, l.head? = some t → t.kind ≠ .at ∧ t.kind ≠ .type

theorem elem_head (e : SElem) : ∃ t ts, e.toks = t :: ts ∧ (t.kind = .variable ∨ t.kind = .iri ∨ t.kind = .identifier ∨ t.kind = .string) := by
  cases e <;> exact ⟨_, _, rfl, by simp [ident]⟩

theorem stops_elem (e : SElem) (l : List Tok) : Stops (e.toks ++ l) := by
  obtain ⟨t, ts, h, hk⟩ := elem_head e
  intro u hu
  rw [h] at hu
  cases hu
  rcases hk with hk | hk | hk | hk <;> rw [hk] <;> simp

theorem stops_cons (t : Tok) (l : List Tok) (h1 : t.kind ≠ .at) (h2 : t.kind ≠ .type) : Stops (t :: l) := by
  intro u hu; cases hu; exact ⟨h1, h2⟩

theorem qname_spec {p l : Text} (hp : (find pre p).isSome) (hl : 92 ∉ l) {s : St} {rest : List Tok} (hs : s.toks = colon :: ident l :: rest) :
    qname pre p s = .ok ((find pre p).getD [] ++ l, { s with toks := rest }) := by
  obtain ⟨i, hi⟩ := Option.isSome_iff_exists.1 hp
  unfold qname
  rw [pop_cons hs]
  simp [colon, pop, hi, ident, unescape_plain l hl]

theorem element_spec (e : SElem) (he : e.Ok pre) (loc : List (Text × Nat)) (s : St) (rest : List Tok) (hs : s.toks = e.toks ++ rest) (hr : Stops rest) :
    ∃ v s', element pre loc s = .ok (v, loc, s') ∧ s'.toks = rest ∧ Reads s s' e.vars ∧ ∀ N', Ext s'.names N' → v = e.meaning pre (num N') := by
  have keep : ∀ (v : Elem) (s' : St), s'.names = s.names → s'.count = s.count → e.vars = [] → Reads s s' e.vars := by
    intro v s' h1 h2 h3
    rw [h3]; exact (Reads.refl s).same h1 h2
  cases e with
  | var x =>
    obtain ⟨i, s', h1, h2, h3, h4⟩ := nameVariable_spec { s with toks := rest } x
    refine ⟨.var i, s', ?_, h2, h4.from rfl rfl, ?_⟩
    · unfold element
      rw [pop_cons hs]
      simp [h1]
    · intro N' hN
      simp [SElem.meaning, num, hN x i h3]
  | iri v =>
    refine ⟨.iri v, { s with toks := rest }, ?_, rfl, keep (.iri v) _ rfl rfl rfl, fun _ _ => rfl⟩
    unfold element
    rw [pop_cons hs]
    simp [unescape_plain v he]
  | a =>
    refine ⟨.iri rdfType, { s with toks := rest }, ?_, rfl, keep (.iri rdfType) _ rfl rfl rfl, fun _ _ => rfl⟩
    unfold element
    rw [pop_cons hs]
    simp [ident]
  | name p l =>
    refine ⟨.iri ((find pre p).getD [] ++ l), { s with toks := rest }, ?_, rfl, keep (.iri []) _ rfl rfl rfl, fun _ _ => rfl⟩
    unfold element
    rw [pop_cons hs]
    simp only [ident]
    show (if p = [97] then _ else _) = _
    rw [if_neg he.2.1]
    show Except.map _ (qname pre p { s with toks := colon :: ident l :: rest }) = _
    rw [qname_spec he.1 he.2.2 rfl]
    rfl
  | lit v =>
    refine ⟨.lit v .none, { s with toks := rest }, ?_, rfl, keep (.iri []) _ rfl rfl rfl, fun _ _ => rfl⟩
    unfold element
    rw [pop_cons hs]
    simp only [List.append_eq, List.nil_append]
    unfold rdfLiteral
    rw [literalValue_plain v he]
    match rest, hr with
    | [], _ => simp [pop]; rfl
    | t :: r, hr =>
      obtain ⟨h1, h2⟩ := hr t rfl
      simp [pop, h1, h2]
      rfl
  | lang v t =>
    refine ⟨.lit v (.lang t), { s with toks := rest }, ?_, rfl, keep (.iri []) _ rfl rfl rfl, fun _ _ => rfl⟩
    unfold element
    rw [pop_cons hs]
    simp only [rdfLiteral, literalValue_plain v he]
    simp [pop, at_, ident]
    rfl
  | typed v d =>
    refine ⟨.lit v (.type d), { s with toks := rest }, ?_, rfl, keep (.iri []) _ rfl rfl rfl, fun _ _ => rfl⟩
    unfold element
    rw [pop_cons hs]
    simp only [rdfLiteral, literalValue_plain v he.1]
    simp [pop, hats, unescape_plain d he.2]
    rfl
  | typedName v p l =>
    refine ⟨.lit v (.type ((find pre p).getD [] ++ l)), { s with toks := rest }, ?_, rfl, keep (.iri []) _ rfl rfl rfl, fun _ _ => rfl⟩
    unfold element
    rw [pop_cons hs]
    simp only [rdfLiteral, literalValue_plain v he.1]
    simp [pop, hats, ident]
    rw [qname_spec he.2.1 he.2.2 rfl]
    rfl

theorem isKeyword_ident {t k w : Text} (h : t.map lower = k) : isKeyword (ident t) w = (k == w) := by
  unfold isKeyword ident
  rw [h]

/-! ## VALUES -/

theorem valuesVars_spec : ∀ (vars : List Text) (n : Nat) (s : St) (rest : List Tok), s.toks = vars.map (Tok.mk .variable) ++ rparen :: rest → vars.length < n →
    ∃ l s', valuesVars n s = .ok (l, s') ∧ s'.toks = rest ∧ Reads s s' vars ∧ l.length = vars.length ∧ ∀ N', Ext s'.names N' → l = vars.map (num N')
  | [], n + 1, s, rest, hs, _ => by
    refine ⟨[], { s with toks := rest }, ?_, rfl, (Reads.refl s).same rfl rfl, rfl, fun _ _ => rfl⟩
    rw [valuesVars, pop_cons (by rw [hs]; rfl)]
    simp [rparen]
  | x :: vars, n + 1, s, rest, hs, hn => by
    obtain ⟨i, s1, h1, h2, h3, h4⟩ := nameVariable_spec { s with toks := vars.map (Tok.mk .variable) ++ rparen :: rest } x
    obtain ⟨l, s', a1, a2, a3, a5, a4⟩ := valuesVars_spec vars n s1 rest h2 (Nat.lt_of_succ_lt_succ hn)
    refine ⟨i :: l, s', ?_, a2, ((h4.from (a := s) rfl rfl).trans a3).of_eq rfl, by simp [a5], ?_⟩
    · rw [valuesVars, pop_cons (by rw [hs]; rfl)]
      simp only [List.append_eq]
      rw [if_neg (by decide), if_neg (by decide), h1]
      simp only
      rw [a1]
      rfl
    · intro N' hN
      rw [a4 N' hN, List.map_cons, num, hN x i (a3.ext x i h3)]
      rw [← a4 N' hN]
      rfl

theorem elements_spec : ∀ (es : List SElem) (loc : List (Text × Nat)) (s : St) (rest : List Tok), (∀ e ∈ es, e.Ok pre) → s.toks = elemToks es ++ rest → Stops rest →
    ∃ l s', elements pre es.length loc s = .ok (l, loc, s') ∧ s'.toks = rest ∧ Reads s s' (es.flatMap SElem.vars)
      ∧ ∀ N', Ext s'.names N' → l = es.map fun e => e.meaning pre (num N')
  | [], loc, s, rest, _, hs, _ => ⟨[], s, rfl, hs, Reads.refl s, fun _ _ => rfl⟩
  | e :: es, loc, s, rest, hok, hs, hr => by
    have hr' : Stops (elemToks es ++ rest) := by
      match es with
      | [] => exact hr
      | e' :: es' => rw [elemToks, List.append_assoc]; exact stops_elem _ _
    obtain ⟨v, s1, a1, a2, a3, a4⟩ := element_spec e (hok e (by simp)) loc s (elemToks es ++ rest) (by rw [hs, elemToks, List.append_assoc]) hr'
    obtain ⟨l, s', b1, b2, b3, b4⟩ := elements_spec es loc s1 rest (fun x hx => hok x (List.mem_cons_of_mem _ hx)) a2 hr
    refine ⟨v :: l, s', ?_, b2, (a3.trans b3).of_eq (by simp), ?_⟩
    · rw [List.length_cons, elements, a1]
      simp only [Except.bind]
      rw [b1]
      rfl
    · intro N' hN
      rw [List.map_cons, ← b4 N' hN, ← a4 N' (b3.ext.trans hN)]

theorem valuesRows_spec (k : Nat) (loc : List (Text × Nat)) : ∀ (rows : List (List SElem)) (n : Nat) (s : St) (rest : List Tok),
    (∀ r ∈ rows, r.length = k ∧ ∀ e ∈ r, e.Ok pre) → s.toks = rowToks rows ++ rcurly :: rest → rows.length < n →
    ∃ l s', valuesRows pre k n loc s = .ok (l, s') ∧ s'.toks = rest ∧ Reads s s' (rows.flatten.flatMap SElem.vars)
      ∧ ∀ N', Ext s'.names N' → l = rows.flatten.map fun e => e.meaning pre (num N')
  | [], n + 1, s, rest, _, hs, _ => by
    refine ⟨[], { s with toks := rest }, ?_, rfl, (Reads.refl s).same rfl rfl, fun _ _ => rfl⟩
    rw [valuesRows, pop_cons (by rw [hs]; rfl)]
    simp [rcurly]
  | r :: rows, n + 1, s, rest, hok, hs, hn => by
    obtain ⟨hk, he⟩ := hok r (by simp)
    obtain ⟨l1, s1, a1, a2, a3, a4⟩ := elements_spec r loc { s with toks := elemToks r ++ (rparen :: (rowToks rows ++ rcurly :: rest)) } _ he rfl
      (stops_cons _ _ (by decide) (by decide))
    obtain ⟨l, s', b1, b2, b3, b4⟩ := valuesRows_spec k loc rows n { s1 with toks := rowToks rows ++ rcurly :: rest } rest
      (fun x hx => hok x (List.mem_cons_of_mem _ hx)) rfl (Nat.lt_of_succ_lt_succ hn)
    refine ⟨l1 ++ l, s', ?_, b2, ((a3.from (a := s) rfl rfl).trans (b3.from rfl rfl)).of_eq (by simp), ?_⟩
    · rw [valuesRows, pop_cons (t := lparen) (r := elemToks r ++ (rparen :: (rowToks rows ++ rcurly :: rest))) (by rw [hs, rowToks]; simp)]
      simp only
      rw [if_neg (by decide), if_pos (by decide), ← hk, a1]
      simp only [Except.bind]
      rw [pop_cons a2]
      simp only
      rw [if_neg (by decide), hk, b1]
      rfl
    · intro N' hN
      rw [List.flatten_cons, List.map_append, ← b4 N' hN, ← a4 N' (b3.ext.trans hN)]

theorem rows_length (rows : List (List SElem)) : rows.length ≤ (rowToks rows).length := by
  induction rows with
  | nil => exact Nat.le_refl _
  | cons r l ih => rw [rowToks]; simp; omega

theorem values_spec (vars : List Text) (rows : List (List SElem)) (s : St) (rest : List Tok) (hok : ∀ r ∈ rows, r.length = vars.length ∧ ∀ e ∈ r, e.Ok pre)
    (hs : s.toks = lparen :: (vars.map (Tok.mk .variable) ++ rparen :: lcurly :: (rowToks rows ++ rcurly :: rest))) :
    ∃ v s', values pre s = .ok (v, s') ∧ s'.toks = rest ∧ Reads s s' (vars ++ rows.flatten.flatMap SElem.vars)
      ∧ ∀ N', Ext s'.names N' → v = (vars.map (num N'), rows.flatten.map fun e => e.meaning pre (num N')) := by
  have hlen : s.toks.length = vars.length + (rowToks rows).length + rest.length + 4 := by rw [hs]; simp; omega
  have := rows_length rows
  obtain ⟨l, s1, a1, a2, a3, a5, a4⟩ := valuesVars_spec vars (s.toks.length + 1) { s with toks := _ } _ rfl (by omega)
  obtain ⟨l2, s', b1, b2, b3, b4⟩ := valuesRows_spec vars.length [] rows (s.toks.length + 1) { s1 with toks := rowToks rows ++ rcurly :: rest } rest hok rfl (by omega)
  refine ⟨(l, l2), s', ?_, b2, (a3.from (a := s) rfl rfl).trans (b3.from rfl rfl), ?_⟩
  · unfold values
    rw [pop_cons hs]
    simp only
    rw [if_neg (by decide), if_neg (by decide), a1]
    simp only [Except.bind]
    rw [pop_cons a2]
    simp only
    rw [if_neg (by decide), a5, b1]
    rfl
  · intro N' hN
    rw [b4 N' hN, a4 N' (b3.ext.trans hN)]

end Trident.Sparql.Parse
