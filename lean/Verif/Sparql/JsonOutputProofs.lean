import Verif.Sparql.JsonOutput
import Verif.Sparql.JsonOutputSpec
import Verif.Sparql.QueryAssume
import Verif.Http.JsonMake
/-!
# Proofs about the JSON of the answers
-/
namespace Trident.Sparql.Parse

open Lex Spec
open Trident.Http (Json make makeArr makeObj)
open Trident.Http.Spec (Doc)

/-- The terms that are shown as what they are: no blank nodes, and not the empty IRI. -/
def Spec.Term.Shown : Term → Prop
  | .iri v => v ≠ []
  | .blank _ => False
  | _ => True

theorem cell_make {t : Term} (h : Term.Shown t) : cellJson (some t.text) = make (termDoc t) := by
  have hl : ∀ s : Text, cellJson (some (34 :: s)) = make (.obj [(str "type", .str (str "literal")), (str "value", .str (34 :: s))]) := by
    intro s
    simp [cellJson, shownTerm, make, makeObj, Json.put, Json.new, str]
  cases t with
  | blank => exact h.elim
  | iri v =>
    have hv : 0 < v.length := List.length_pos_iff.2 h
    simp only [Term.text, cellJson, shownTerm, termDoc]
    rw [if_pos (by simp; omega)]
    simp [make, makeObj, Json.put, Json.new, str]
  | plain v => exact hl _
  | lang v l => exact hl _
  | typed v d => exact hl _

theorem termDoc_not_str (t : Term) : ¬(termDoc t).isStr := by
  cases t <;> simp [termDoc, Doc.isStr]

/-- All the cells have terms that are shown. -/
def Full (r : List (Option Term)) : Prop := ∀ c ∈ r, ∃ t, c = some t ∧ Term.Shown t

theorem row_make : ∀ (columns : List Text) (r : List (Option Term)) (j : Json), Full r →
    rowJson columns (r.map (Option.map Term.text)) j = makeObj (rowMembers columns r) j
  | [], _, j, _ => by simp [rowJson, rowMembers, makeObj]
  | c :: columns, [], j, _ => by simp [rowJson, rowMembers, makeObj]
  | c :: columns, x :: r, j, h => by
    obtain ⟨t, rfl, ht⟩ := h x (by simp)
    have ih := fun j => row_make columns r j fun c hc => h c (by simp [hc])
    simp only [List.map_cons, Option.map_some, rowJson, rowMembers]
    rw [Trident.Http.makeObj_cons (termDoc_not_str t), cell_make ht]
    cases make (termDoc t) with
    | none => rfl
    | some k => exact ih _

theorem bindings_make (columns : List Text) : ∀ (rows : List (List (Option Term))) (j : Json), (∀ r ∈ rows, Full r) →
    bindingsJson columns (rows.map fun r => r.map (Option.map Term.text)) j = makeArr (rows.map fun r => .obj (rowMembers columns r)) j
  | [], j, _ => by simp [bindingsJson, makeArr]
  | r :: rows, j, h => by
    simp only [List.map_cons, bindingsJson]
    rw [Trident.Http.makeArr_cons (by simp [Doc.isStr]), row_make _ _ _ (h r (by simp)), make]
    cases makeObj (rowMembers columns r) .new with
    | none => rfl
    | some k => exact bindings_make columns rows _ fun r hr => h r (by simp [hr])

theorem vars_make : ∀ (columns : List Text) (j : Json), makeArr (columns.map .str) j = some (columns.foldl Json.pushText j)
  | [], j => by simp [makeArr]
  | c :: columns, j => by
    simp only [List.map_cons, makeArr, List.foldl_cons]
    exact vars_make columns _

/-- The object is the one that stands for the document. -/
theorem result_make {columns : List Text} {rows : List (List (Option Term))} {runtime : Text} {b s : Json} (h : ∀ r ∈ rows, Full r)
    (hb : bindingsJson columns (rows.map fun r => r.map (Option.map Term.text)) .new = some b) (hs : statsJson runtime rows.length = some s) :
    make (resultDoc columns rows runtime) = some (resultJson (varsJson columns) b s) := by
  rw [bindings_make columns rows .new h] at hb
  have hs : makeObj [(str "runtime", .str runtime), (str "nresults", .str (str (toString rows.length)))] .new = some s := by
    rw [← hs]
    simp [makeObj, statsJson, Json.put, Json.new, decimal, str]
  have hv : makeArr (columns.map .str) .new = some (varsJson columns) := vars_make columns .new
  have hd : make (resultDoc columns rows runtime) = match makeObj [(str "runtime", .str runtime), (str "nresults", .str (str (toString rows.length)))] .new with
      | none => none
      | some c => some (resultJson (varsJson columns) b c) := by
    simp only [resultDoc, make, makeObj, hb, hv]
    rfl
  rw [hd, hs]

theorem keys_sub : ∀ (columns : List Text) (r : List (Option Term)), ((rowMembers columns r).map (·.1)).Sublist columns
  | [], _ => by simp [rowMembers]
  | c :: columns, [] => by simp [rowMembers]
  | c :: columns, none :: r => by
    simp only [rowMembers]
    exact (keys_sub columns r).cons _
  | c :: columns, some t :: r => by
    simp only [rowMembers, List.map_cons]
    exact (keys_sub columns r).cons_cons _

theorem members_term : ∀ {columns : List Text} {r : List (Option Term)} {k : Text} {d : Doc}, (k, d) ∈ rowMembers columns r → ∃ t, d = termDoc t
  | [], _, k, d, h => by simp [rowMembers] at h
  | c :: columns, [], k, d, h => by simp [rowMembers] at h
  | c :: columns, none :: r, k, d, h => by
    simp only [rowMembers] at h
    exact members_term h
  | c :: columns, some t :: r, k, d, h => by
    simp only [rowMembers, List.mem_cons, Prod.mk.injEq] at h
    rcases h with ⟨_, rfl⟩ | h
    · exact ⟨t, rfl⟩
    · exact members_term h

theorem pair_holds {k k' a b : Text} (h : k ≠ k') (hk : k ≠ []) (hk' : k' ≠ []) : Http.Holds (.obj [(k, .str a), (k', .str b)]) := by
  refine .obj (by simpa using h) ?_ ?_
  · intro c d hm _
    simp at hm
    rcases hm with ⟨rfl, _⟩ | ⟨rfl, _⟩ <;> assumption
  · intro c d hm hn
    simp at hm
    rcases hm with ⟨_, rfl⟩ | ⟨_, rfl⟩ <;> exact (hn trivial).elim

theorem term_holds (t : Term) : Http.Holds (termDoc t) := by
  cases t <;> exact pair_holds (by decide) (by decide) (by decide)

theorem child_holds {k : Text} {d : Doc} (h : Http.Holds d) : Http.Holds (.obj [(k, d)]) := by
  refine .obj (by simp) ?_ ?_
  · intro c e hm hs
    simp at hm
    rw [hm.2] at hs
    exact (h.not_str hs).elim
  · intro c e hm _
    simp at hm
    rw [hm.2]; exact h

theorem result_holds {columns : List Text} {rows : List (List (Option Term))} {runtime : Text} (hc : columns ≠ []) (hd : columns.Nodup) (hr : rows ≠ []) :
    Http.Holds (resultDoc columns rows runtime) := by
  have h1 : Http.Holds (.obj [(str "vars", .arr (columns.map .str))]) := child_holds (.texts (by simpa using hc) (by simp [Doc.isStr]))
  have h2 : Http.Holds (.obj [(str "bindings", .arr (rows.map fun r => .obj (rowMembers columns r)))]) := by
    refine child_holds (.items (by simpa using hr) ?_)
    intro d hm
    obtain ⟨r, _, rfl⟩ := List.mem_map.1 hm
    refine .obj ((keys_sub columns r).nodup hd) ?_ ?_
    · intro k d hm hs
      obtain ⟨t, rfl⟩ := members_term hm
      exact (termDoc_not_str t hs).elim
    · intro k d hm _
      obtain ⟨t, rfl⟩ := members_term hm
      exact term_holds t
  have h3 : Http.Holds (.obj [(str "runtime", .str runtime), (str "nresults", .str (str (toString rows.length)))]) := pair_holds (by decide) (by decide) (by decide)
  refine .obj (show [str "head", str "results", str "stats"].Nodup by decide) ?_ ?_
  · intro k d hm hs
    simp at hm
    rcases hm with ⟨_, rfl⟩ | ⟨_, rfl⟩ | ⟨_, rfl⟩
    · exact (h1.not_str hs).elim
    · exact (h2.not_str hs).elim
    · exact (h3.not_str hs).elim
  · intro k d hm _
    simp at hm
    rcases hm with ⟨_, rfl⟩ | ⟨_, rfl⟩ | ⟨_, rfl⟩ <;> assumption

/-- The text that is written for answers. -/
theorem result_written {columns : List Text} {rows : List (List (Option Term))} {runtime : Text} (hc : columns ≠ []) (hd : columns.Nodup) (hr : rows ≠ []) (h : ∀ r ∈ rows, Full r) :
    ∃ b s t, bindingsJson columns (rows.map fun r => r.map (Option.map Term.text)) .new = some b ∧ statsJson runtime rows.length = some s ∧
      Http.write (resultJson (varsJson columns) b s) = some t ∧ ∃ d, Http.Spec.IsJson t d ∧ Http.Spec.Same (resultDoc columns rows runtime) d := by
  obtain ⟨j, t, hm, hw, hsame⟩ : Http.Good (resultDoc columns rows runtime) := Http.holds_good (result_holds (runtime := runtime) hc hd hr)
  have hs : ∃ s, statsJson runtime rows.length = some s := ⟨_, by simp [statsJson, Json.put, Json.new, str]; rfl⟩
  obtain ⟨s, hs⟩ := hs
  have hb : ∃ b, bindingsJson columns (rows.map fun r => r.map (Option.map Term.text)) .new = some b := by
    rw [bindings_make columns rows .new h]
    simp only [resultDoc, make, makeObj, vars_make] at hm
    cases hb : makeArr (rows.map fun r => Doc.obj (rowMembers columns r)) .new with
    | some b => exact ⟨b, rfl⟩
    | none =>
      rw [hb] at hm
      simp at hm
  obtain ⟨b, hb⟩ := hb
  rw [result_make h hb hs] at hm
  cases hm
  exact ⟨b, s, t, hb, hs, hw, _, Http.write_isJson hw, hsame⟩

/-! ## Rows -/

theorem expand_drop {l : List Row} (limit : Nat) (h : ∀ r ∈ l, r.1 ≠ 0) : ∀ o e, e + l.length ≤ limit → expand (Limit.collect .expand limit l o e) = (expand l).drop o := by
  induction l with
  | nil => intro o e _; simp [Limit.collect, expand]
  | cons r l ih =>
    intro o e hl
    have hr := h r (by simp)
    have ih := ih fun q hq => h q (by simp [hq])
    rw [List.length_cons] at hl
    have ec : ∀ (r : Row) (l : List Row), expand (r :: l) = List.replicate r.1 r.2 ++ expand l := fun r l => by simp [expand]
    rw [Limit.collect, if_neg (by simp; omega)]
    by_cases ho : 0 < o ∧ r.1 ≤ o
    · rw [if_pos ho, ih _ _ (by omega), ec, List.drop_append, List.length_replicate, List.drop_replicate, Nat.sub_eq_zero_of_le ho.2, List.replicate_zero, List.nil_append]
    · rw [if_neg ho, ec, ec, List.drop_append, List.length_replicate, List.drop_replicate]
      have h0 : o - r.1 = 0 := by omega
      rw [h0, List.drop_zero]
      congr 1
      split
      · have : l = [] := List.length_eq_zero_iff.1 (by omega)
        rw [this]
      · rw [ih _ _ (by omega), List.drop_zero]

theorem length_expand {l : List Row} (h : ∀ r ∈ l, r.1 ≠ 0) : l.length ≤ (expand l).length := by
  induction l with
  | nil => simp
  | cons r l ih =>
    have := ih fun q hq => h q (by simp [hq])
    have := h r (by simp)
    have ec : expand (r :: l) = List.replicate r.1 r.2 ++ expand l := by simp [expand]
    rw [ec, List.length_append, List.length_replicate, List.length_cons]
    omega

theorem perm_back {α β : Type} {f : α → β} {m L : List β} (h : m.Perm L) : ∀ a : List α, m = a.map f → ∃ l : List α, l.Perm a ∧ L = l.map f := by
  induction h with
  | nil => intro a e; exact ⟨a, .refl _, e⟩
  | cons x _ ih =>
    intro a e
    match a, e with
    | y :: a, e =>
      rw [List.map_cons] at e
      injection e with e1 e2
      obtain ⟨l, h1, h2⟩ := ih a e2
      exact ⟨y :: l, h1.cons _, by rw [List.map_cons, ← h2, e1]⟩
  | swap x y _ =>
    intro a e
    match a, e with
    | u :: v :: a, e =>
      simp only [List.map_cons, List.cons.injEq] at e
      exact ⟨v :: u :: a, .swap _ _ _, by simp [e.1, e.2.1, e.2.2]⟩
    | [_], e => simp at e
  | trans _ _ ih1 ih2 =>
    intro a e
    obtain ⟨l, h1, h2⟩ := ih1 a e
    obtain ⟨l2, h3, h4⟩ := ih2 l h2
    exact ⟨l2, h3.trans h1, h4⟩

/-! ## Answers have terms in all columns -/

variable {pre : List (Text × Text)} {graph : List (Term × Term × Term)}

theorem matches_bound {e : SElem} {t : Term} {σ σ' : Sol} (h : e.matches pre t σ = some σ') :
    (∀ x, (σ x).isSome → σ' x = σ x) ∧ (∀ x ∈ e.vars, (σ' x).isSome) ∧ ∀ x u, σ' x = some u → σ x = some u ∨ u = t := by
  cases e with
  | var x =>
    simp only [SElem.matches] at h
    split at h
    · rename_i u hu
      split at h
      · cases h
        refine ⟨fun _ _ => rfl, ?_, fun _ _ h => .inl h⟩
        intro y hy
        simp [SElem.vars] at hy
        rw [hy, hu]; rfl
      · cases h
    · rename_i hn
      cases h
      refine ⟨?_, ?_, ?_⟩
      · intro y hy
        by_cases e : y = x
        · rw [e, hn] at hy; simp at hy
        · simp [e]
      · intro y hy
        simp [SElem.vars] at hy
        simp [hy]
      · intro y u hu
        by_cases e : y = x
        · simp only [e, if_true, Option.some.injEq] at hu
          exact .inr hu.symm
        · simp only [e, if_false] at hu
          exact .inl hu
  | _ =>
    simp only [SElem.matches] at h
    split at h
    · cases h
      exact ⟨fun _ _ => rfl, by simp [SElem.vars], fun _ _ h => .inl h⟩
    · cases h

/-- The terms of a triple. -/
def inTriple (u : Term) (t : Term × Term × Term) : Prop := u = t.1 ∨ u = t.2.1 ∨ u = t.2.2

theorem triple_bound {p : STriple} {t : Term × Term × Term} {σ σ' : Sol} (h : matchTriple pre p t σ = some σ') :
    (∀ x, (σ x).isSome → σ' x = σ x) ∧ (∀ x ∈ tripleVars p, (σ' x).isSome) ∧ ∀ x u, σ' x = some u → σ x = some u ∨ inTriple u t := by
  simp only [matchTriple, Option.bind_eq_some_iff] at h
  obtain ⟨σ1, h1, σ2, h2, h3⟩ := h
  obtain ⟨a1, a2, a3⟩ := matches_bound h1
  obtain ⟨b1, b2, b3⟩ := matches_bound h2
  obtain ⟨c1, c2, c3⟩ := matches_bound h3
  have up2 : ∀ x, (σ2 x).isSome → (σ' x).isSome := fun x hx => by rw [c1 x hx]; exact hx
  have up1 : ∀ x, (σ1 x).isSome → (σ2 x).isSome := fun x hx => by rw [b1 x hx]; exact hx
  refine ⟨?_, ?_, ?_⟩
  · intro x hx
    have e1 := a1 x hx
    have e2 := b1 x (by rw [e1]; exact hx)
    rw [c1 x (by rw [e2, e1]; exact hx), e2, e1]
  · intro x hx
    simp only [tripleVars, List.mem_append] at hx
    rcases hx with hx | hx | hx
    · exact up2 x (up1 x (a2 x hx))
    · exact up2 x (b2 x hx)
    · exact c2 x hx
  · intro x u hu
    rcases c3 x u hu with h | h
    · rcases b3 x u h with h | h
      · exact (a3 x u h).imp id .inl
      · exact .inr (.inr (.inl h))
    · exact .inr (.inr (.inr h))

theorem solutions_bound : ∀ {ps : List STriple} {σ σ' : Sol}, σ' ∈ solutions pre graph ps σ →
    (∀ x, (σ x).isSome → σ' x = σ x) ∧ (∀ p ∈ ps, ∀ x ∈ tripleVars p, (σ' x).isSome) ∧ ∀ x u, σ' x = some u → σ x = some u ∨ ∃ t ∈ graph, inTriple u t
  | [], σ, σ', h => by
    simp [solutions] at h
    subst h
    exact ⟨fun _ _ => rfl, by simp, fun _ _ h => .inl h⟩
  | p :: ps, σ, σ', h => by
    simp only [solutions, List.mem_flatMap] at h
    obtain ⟨t, ht, h⟩ := h
    cases hm : matchTriple pre p t σ with
    | none => rw [hm] at h; simp at h
    | some σ1 =>
      rw [hm] at h
      obtain ⟨a1, a2, a3⟩ := triple_bound hm
      obtain ⟨b1, b2, b3⟩ := solutions_bound h
      refine ⟨?_, ?_, ?_⟩
      · intro x hx
        rw [b1 x (by rw [a1 x hx]; exact hx), a1 x hx]
      · intro q hq x hx
        rcases List.mem_cons.1 hq with rfl | hq
        · rw [b1 x (a2 x hx)]; exact a2 x hx
        · exact b2 q hq x hx
      · intro x u hu
        rcases b3 x u hu with h | h
        · exact (a3 x u h).imp id fun h => ⟨t, ht, h⟩
        · exact .inr h

/-- The cells of answers have terms of the graph. -/
theorem answers_bound {F : Type} {P : Select.Lib F} {p : Pat} {columns : List Text} (hc : ∀ x ∈ columns, ∃ t ∈ p.triples, x ∈ tripleVars t) :
    ∀ r ∈ answers P pre graph p columns, ∀ c ∈ r, ∃ t, c = some t ∧ ∃ g ∈ graph, inTriple t g := by
  intro r hr c hcr
  unfold answers at hr
  obtain ⟨σ, hσ, rfl⟩ := List.mem_map.1 hr
  obtain ⟨x, hx, rfl⟩ := List.mem_map.1 hcr
  obtain ⟨_, h2, h3⟩ := solutions_bound (List.mem_filter.1 hσ).1
  obtain ⟨t, ht, hx⟩ := hc x hx
  have := h2 t ht x hx
  obtain ⟨u, hu⟩ := Option.isSome_iff_exists.1 this
  exact ⟨u, hu, (h3 x u hu).elim (by simp) id⟩

end Trident.Sparql.Parse
