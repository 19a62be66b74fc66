import Verif.Sparql.SortKeys
import Verif.Sparql.QueryTextProofs
import Verif.Props.PlanGen
import Verif.Props.Limit
import Verif.Props.Distinct
/-! # Whole queries: from parsed queries to lines -/
namespace Trident.Sparql.Parse

open Lex Spec
open Select (Expr Lib Cache Dict)
open Analysis (PElem)
open PlanGen (Choice Node cvars mem_cvars value_append fits_append fits_iff value_eq_val value_none value_isSome mem_of_value cvars_append val cvars_choices)
open PlanGen.Spec (value fits beside choices)

variable {F : Type} {P : Lib F} {get : GetNumber} {dict : Dict} {pre : List (Text × Text)} {num : Text → Nat}

/-! ## Groups -/

theorem meaning_more (s : SElem) : ∀ (l : List (Option SElem × SElem)) (p : SElem),
    moreTriples pre num (s.meaning pre num) (p.meaning pre num) l = (moreOf s p l).map (meaningOf pre num)
  | [], _ => rfl
  | (some q, o) :: l, p => by rw [moreTriples, moreOf, List.map_cons, meaning_more s l q]; rfl
  | (none, o) :: l, p => by rw [moreTriples, moreOf, List.map_cons, meaning_more s l p]; rfl

theorem meaning_flat : ∀ {p : Pat}, p.Flat → p.meaning pre num = .mk (p.triples.map (meaningOf pre num)) [] [] [] [] (p.conds.map (SCond.meaning pre num))
  | .nil, _ => rfl
  | .block s q o more _ rest, h => by
    rw [Pat.meaning, meaning_flat (p := rest) h, meaning_more, Pat.triples, Pat.conds]
    simp [append, meaningOf]
  | .nested g rest, h => by
    rw [Pat.meaning, meaning_flat h.1, meaning_flat h.2, Pat.triples, Pat.conds]
    simp [append]
  | .filter c _ _ rest, h => by
    rw [Pat.meaning, meaning_flat (p := rest) h, Pat.triples, Pat.conds]
    simp [append]
  | .optional .., h | .union .., h | .alt .., h | .minus .., h | .values .., h => absurd h id

theorem more_vars (s : SElem) (x : Text) : ∀ (l : List (Option SElem × SElem)) (p : SElem),
    (∃ t ∈ moreOf s p l, x ∈ tripleVars t) → x ∈ s.vars ∨ x ∈ p.vars ∨ x ∈ l.flatMap fun x => (x.1.map SElem.vars).getD [] ++ x.2.vars
  | [], _ => by simp [moreOf]
  | (some q, o) :: l, p => by
    have ih := more_vars s x l q
    simp only [moreOf, List.mem_cons, tripleVars, List.mem_append, List.flatMap_cons] at ih ⊢
    rintro ⟨t, rfl | ht, h⟩
    · simp only at h
      rcases h with h | h | h
      · exact .inl h
      · exact .inr (.inr (.inl (.inl h)))
      · exact .inr (.inr (.inl (.inr h)))
    · rcases ih ⟨t, ht, h⟩ with h | h | h
      · exact .inl h
      · exact .inr (.inr (.inl (.inl h)))
      · exact .inr (.inr (.inr h))
  | (none, o) :: l, p => by
    have ih := more_vars s x l p
    simp only [moreOf, List.mem_cons, tripleVars, List.mem_append, List.flatMap_cons] at ih ⊢
    rintro ⟨t, rfl | ht, h⟩
    · simp only at h
      rcases h with h | h | h
      · exact .inl h
      · exact .inr (.inl h)
      · exact .inr (.inr (.inl (.inr h)))
    · rcases ih ⟨t, ht, h⟩ with h | h | h
      · exact .inl h
      · exact .inr (.inl h)
      · exact .inr (.inr (.inr h))

theorem vars_more (s : SElem) (x : Text) : ∀ (l : List (Option SElem × SElem)) (p : SElem),
    (x ∈ l.flatMap fun x => (x.1.map SElem.vars).getD [] ++ x.2.vars) → ∃ t ∈ moreOf s p l, x ∈ tripleVars t
  | [], _ => by simp
  | (some q, o) :: l, p => by
    have ih := vars_more s x l q
    simp only [moreOf, List.mem_cons, tripleVars, List.mem_append, List.flatMap_cons] at ih ⊢
    rintro ((h | h) | h)
    · exact ⟨_, .inl rfl, .inr (.inl h)⟩
    · exact ⟨_, .inl rfl, .inr (.inr h)⟩
    · obtain ⟨t, ht, h⟩ := ih h
      exact ⟨t, .inr ht, h⟩
  | (none, o) :: l, p => by
    have ih := vars_more s x l p
    simp only [moreOf, List.mem_cons, tripleVars, List.mem_append, List.flatMap_cons] at ih ⊢
    rintro ((h | h) | h)
    · cases h
    · exact ⟨_, .inl rfl, .inr (.inr h)⟩
    · obtain ⟨t, ht, h⟩ := ih h
      exact ⟨t, .inr ht, h⟩

/-- The variables of a group are those of its patterns and conditions. -/
theorem flat_vars {x : Text} : ∀ {p : Pat}, p.Flat → (x ∈ p.vars ↔ (∃ t ∈ p.triples, x ∈ tripleVars t) ∨ ∃ c ∈ p.conds, x ∈ c.vars)
  | .nil, _ => by simp [Pat.vars, Pat.triples, Pat.conds]
  | .block s q o more _ rest, h => by
    have ih := flat_vars (x := x) (p := rest) h
    simp only [Pat.vars, Pat.triples, Pat.conds, List.mem_append, List.mem_cons] at ih ⊢
    rw [ih]
    constructor
    · rintro ((((h | h) | h) | h) | h | h)
      · exact .inl ⟨_, .inl rfl, by simp [tripleVars, h]⟩
      · exact .inl ⟨_, .inl rfl, by simp [tripleVars, h]⟩
      · exact .inl ⟨_, .inl rfl, by simp [tripleVars, h]⟩
      · obtain ⟨t, ht, h⟩ := vars_more s x more q h
        exact .inl ⟨t, .inr (.inl ht), h⟩
      · obtain ⟨t, ht, h⟩ := h
        exact .inl ⟨t, .inr (.inr ht), h⟩
      · exact .inr h
    · rintro (⟨t, rfl | ht | ht, h⟩ | h)
      · simp only [tripleVars, List.mem_append] at h
        rcases h with h | h | h
        · exact .inl (.inl (.inl (.inl h)))
        · exact .inl (.inl (.inl (.inr h)))
        · exact .inl (.inl (.inr h))
      · rcases more_vars s x more q ⟨t, ht, h⟩ with h | h | h
        · exact .inl (.inl (.inl (.inl h)))
        · exact .inl (.inl (.inl (.inr h)))
        · exact .inl (.inr h)
      · exact .inr (.inl ⟨t, ht, h⟩)
      · exact .inr (.inr h)
  | .nested g rest, h => by
    have i1 := flat_vars (x := x) h.1
    have i2 := flat_vars (x := x) h.2
    simp only [Pat.vars, Pat.triples, Pat.conds, List.mem_append, i1, i2]
    constructor
    · rintro ((⟨t, ht, h⟩ | ⟨t, ht, h⟩) | ⟨t, ht, h⟩ | ⟨t, ht, h⟩)
      · exact .inl ⟨t, .inl ht, h⟩
      · exact .inr ⟨t, .inl ht, h⟩
      · exact .inl ⟨t, .inr ht, h⟩
      · exact .inr ⟨t, .inr ht, h⟩
    · rintro (⟨t, ht | ht, h⟩ | ⟨t, ht | ht, h⟩)
      · exact .inl (.inl ⟨t, ht, h⟩)
      · exact .inr (.inl ⟨t, ht, h⟩)
      · exact .inl (.inr ⟨t, ht, h⟩)
      · exact .inr (.inr ⟨t, ht, h⟩)
  | .filter c _ _ rest, h => by
    have ih := flat_vars (x := x) (p := rest) h
    simp only [Pat.vars, Pat.triples, Pat.conds, List.mem_append, List.mem_cons] at ih ⊢
    rw [ih]
    constructor
    · rintro (h | h | ⟨d, hd, h⟩)
      · exact .inr ⟨c, .inl rfl, h⟩
      · exact .inl h
      · exact .inr ⟨d, .inr hd, h⟩
    · rintro (h | ⟨d, hd | hd, hx⟩)
      · exact .inr (.inl h)
      · exact .inl (hd ▸ hx)
      · exact .inr (.inr ⟨d, hd, hx⟩)
  | .optional .., h | .union .., h | .alt .., h | .minus .., h | .values .., h => absurd h id

variable {graph : List (Term × Term × Term)} {db : List PlanGen.Triple} {p : Pat}

theorem GroupOk.vars (h : GroupOk P get graph pre p) {x : Text} : x ∈ p.vars ↔ ∃ t ∈ p.triples, x ∈ tripleVars t := by
  rw [flat_vars h.flat]
  exact ⟨fun h' => h'.elim id fun ⟨c, hc, hx⟩ => h.bound c hc x hx, .inl⟩

theorem GroupOk.pat (h : GroupOk P get graph pre p) : ∀ t ∈ p.triples, PatOk get pre p.vars t := by
  intro t ht e he
  refine ⟨fun x hx => h.vars.2 ⟨t, ht, ?_⟩, h.constants t ht e he⟩
  simp only [List.mem_cons, List.not_mem_nil, or_false] at he
  simp only [tripleVars, List.mem_append]
  rcases he with rfl | rfl | rfl
  · exact .inl hx
  · exact .inr (.inl hx)
  · exact .inr (.inr hx)

theorem GroupOk.occurs (h : GroupOk P get graph pre p) {x : Text} (hx : x ∈ p.vars) : Occurs (num x) (p.meaning pre num) := by
  obtain ⟨t, ht, hx⟩ := h.vars.1 hx
  rw [meaning_flat h.flat]
  refine Occurs.pattern (List.mem_map_of_mem (f := meaningOf pre num) ht) ?_
  have var : ∀ {e : SElem}, x ∈ e.vars → e.meaning pre num = .var (num x) := by
    intro e he
    cases e <;> simp only [SElem.vars, List.mem_singleton, List.not_mem_nil] at he
    rw [he]; rfl
  simp only [tripleVars, List.mem_append] at hx
  exact hx.imp var (.imp var var)

theorem sol_nil (V : List Text) : sol dict num V [] = fun _ => none := by
  funext x
  unfold sol
  split <;> rfl

/-! ## Nodes -/

/-- The variables of an element. -/
def elemVars : PElem Nat → List Nat
  | .var x => [x]
  | .const _ => []

theorem elem_vars {e : SElem} {n : PElem Nat} (h : encodeElem get (e.meaning pre num) = some n) : elemVars n = e.vars.map num := by
  unfold encodeElem at h
  obtain ⟨⟨i, b⟩, h1, rfl⟩ := Option.map_eq_some_iff.1 h
  have other : (∀ x, e ≠ .var x) → b = true := by
    intro hne
    match hm : e.meaning pre num, h1 with
    | .var y, _ => cases e <;> first | exact absurd rfl (hne _) | cases hm
    | .iri v, h1 =>
      simp only [encode] at h1
      obtain ⟨_, _, h1⟩ := Option.map_eq_some_iff.1 h1
      cases h1; rfl
    | .lit v .none, h1 =>
      simp only [encode] at h1
      obtain ⟨_, _, h1⟩ := Option.map_eq_some_iff.1 h1
      cases h1; rfl
    | .lit v (.lang _), h1 =>
      simp only [encode] at h1
      obtain ⟨_, _, h1⟩ := Option.bind_eq_some_iff.1 h1
      obtain ⟨_, _, h1⟩ := Option.map_eq_some_iff.1 h1
      cases h1; rfl
    | .lit v (.type _), h1 =>
      simp only [encode] at h1
      obtain ⟨_, _, h1⟩ := Option.bind_eq_some_iff.1 h1
      obtain ⟨_, _, h1⟩ := Option.map_eq_some_iff.1 h1
      cases h1; rfl
  cases e with
  | var x => cases h1; rfl
  | _ => rw [other nofun]; rfl

theorem node_elemVars (n : Node) : n.vars = elemVars n.1 ++ (elemVars n.2.1 ++ elemVars n.2.2) := by
  obtain ⟨a, b, c⟩ := n
  cases a <;> cases b <;> cases c <;> rfl

theorem node_vars {t : STriple} {n : Node} (h : encodeTriple get (meaningOf pre num t) = some n) : n.vars = (tripleVars t).map num := by
  obtain ⟨h1, h2, h3⟩ := encodeTriple_some h
  rw [node_elemVars, elem_vars h1, elem_vars h2, elem_vars h3]
  simp [tripleVars]

theorem nodup_map {α β : Type} {f : α → β} : ∀ {l : List α}, l.Nodup → (∀ x ∈ l, ∀ y ∈ l, f x = f y → x = y) → (l.map f).Nodup
  | [], _, _ => .nil
  | a :: l, h, hf => by
    rw [List.nodup_cons] at h
    rw [List.map_cons, List.nodup_cons]
    refine ⟨fun hm => ?_, nodup_map h.2 fun x hx y hy => hf x (List.mem_cons_of_mem _ hx) y (List.mem_cons_of_mem _ hy)⟩
    obtain ⟨b, hb, e⟩ := List.mem_map.1 hm
    exact h.1 (hf b (List.mem_cons_of_mem _ hb) a (by simp) e ▸ hb)

/-! ## The query graph -/

/-- The conditions of a group, each part on its own. -/
def parts (p : Pat) : List SCond := p.conds.flatMap SCond.conjuncts

/-- The query graph of a group. -/
def graphOf (P : Lib F) (get : GetNumber) (dict : Dict) (pre : List (Text × Text)) (num : Text → Nat) (p : Pat) (ns : List Node) (columns : List Text) (order : List Text := []) :
    PlanGen.Query :=
  ⟨ns, ((parts p).map (enc get (p.meaning pre num) pre num)).map (filterOf P dict), columns.map num, order.map num⟩

theorem encodeAll_ok (P : Lib F) {g : Group} : ∀ (cs : List SCond), (∀ c ∈ cs, c.Treated) → (∀ c ∈ cs, ∀ x ∈ c.vars, binds (num x) g = true) →
    encodeAll get g (cs.map (SCond.meaning pre num)) = some ((cs.flatMap SCond.conjuncts).map (enc get g pre num))
  | [], _, _ => rfl
  | c :: cs, h, hb => by
    rw [List.map_cons, encodeAll, (conjuncts_spec (P := P) c).2.1 (h c (by simp)) (hb c (by simp)),
      encodeAll_ok P cs (fun c hc => h c (List.mem_cons_of_mem _ hc)) fun c hc => hb c (List.mem_cons_of_mem _ hc)]
    simp

theorem sortKeys_ok {g : Group} : ∀ (ks : List SKey), (∀ k ∈ ks, binds (num k.name) g = true) →
    sortKeys g (ks.map (SKey.meaning num)) = .ok (ks.map fun k => (some (num k.name), k.descending))
  | [], _ => rfl
  | k :: ks, h => by
    have ih := sortKeys_ok ks fun k hk => h k (List.mem_cons_of_mem _ hk)
    have hk := h k List.mem_cons_self
    cases k <;> simp only [List.map_cons, SKey.meaning, sortKeys, ih, SKey.name] at hk ⊢ <;> rw [hk] <;> rfl

theorem transform_ok (h : GroupOk P get graph pre p) (m : Modifier) (columns : List Text) (l : Option Nat) (o : Nat) (ks : List SKey) (hks : ∀ k ∈ ks, k.name ∈ p.vars) :
    transform P get dict ⟨m, columns.map num, p.meaning pre num, l, o, ks.map (SKey.meaning num)⟩ =
      .ok ((encodeTriples get (p.triples.map (meaningOf pre num))).map fun ns => graphOf P get dict pre num p ns columns (ks.map SKey.name)) := by
  have hsk : sortKeys (p.meaning pre num) (ks.map (SKey.meaning num)) = .ok (ks.map fun k => (some (num k.name), k.descending)) :=
    sortKeys_ok ks fun k hk => binds_of (h.occurs (num := num) (hks k hk))
  have hfm : (ks.map fun k => (some (num k.name), k.descending)).filterMap (·.1) = (ks.map SKey.name).map num := by
    rw [List.filterMap_map, List.map_map]
    show ks.filterMap (fun k => some ((num ∘ SKey.name) k)) = _
    rw [List.filterMap_eq_map']
  have hb := fun c hc => fun x hx => binds_of (h.occurs (num := num) (h.vars.2 (h.bound c hc x hx)))
  have ha := encodeAll_ok P (get := get) (pre := pre) p.conds h.treated hb
  unfold transform
  simp only
  rw [meaning_flat h.flat] at ha hsk ⊢
  simp only
  cases encodeTriples get (p.triples.map (meaningOf pre num)) with
  | none => rfl
  | some ns =>
    simp only [ha, hsk]
    unfold graphOf
    rw [meaning_flat h.flat, ← hfm]
    rfl

theorem part_of (h : GroupOk P get graph pre p) {d : SCond} (hd : d ∈ parts p) : d.Treated ∧ (∀ x ∈ d.vars, x ∈ p.vars) ∧ (∀ u ∈ d.constants pre, u.Const get) ∧
    (∀ u ∈ d.needed pre, (get u.text).isSome = true) ∧ ∀ σ : Sol, (∀ x ∈ d.vars, ∃ t, σ x = some t ∧ SeenIn pre graph p.triples x t) → (d.truth P pre σ).isSome = true := by
  obtain ⟨c, hc, hd'⟩ := List.mem_flatMap.1 hd
  have hp := (conjuncts_spec (P := P) (get := get) (num := fun _ => 0) (g := Group.empty) (pre := pre) c).1 d hd'
  exact ⟨hp.treated (h.treated c hc), fun x hx => h.vars.2 (h.bound c hc x (hp.vars x hx)), fun u hu => h.condConstants c hc u (hp.constants u hu),
    fun u hu => h.needed c hc u (hp.needed u hu), h.values c hc d hd'⟩

section Graph

variable (hst : Stored P get dict) (hr : ReadsIntegers P) (hload : Loaded get graph db) (h : GroupOk P get graph pre p)
  (hinj : ∀ x ∈ p.vars, ∀ y ∈ p.vars, num x = num y → x = y) {ns : List Node} (hn : encodeTriples get (p.triples.map (meaningOf pre num)) = some ns)

include hst hload h hinj hn in
theorem seen_ok {x : Text} (hx : x ∈ p.vars) {v : Nat} (hs : PlanGen.Spec.Seen db ns (num x) v) : ∃ t : Term, t.Ok ∧ dict v = some t.text ∧ SeenIn pre graph p.triples x t := by
  obtain ⟨n, hn', d, hd, hf, hv⟩ := hs
  obtain ⟨m, hm, e⟩ := encodeTriples_mem hn n hn'
  obtain ⟨t, ht, rfl⟩ := List.mem_map.1 hm
  obtain ⟨u, hu, hud⟩ := loaded_mem hload d hd
  obtain ⟨w, hw, hdw⟩ := Sto.beside hst hud n _ (mem_of_value hv)
  refine ⟨w, hw, hdw, t, ht, u, hu, sol dict num p.vars (beside n d), ?_, ?_⟩
  · have := triple_match hst hinj (h.pat t ht) e hud (c := []) rfl nofun
    rw [sol_nil, List.nil_append, if_pos hf] at this
    exact this
  · unfold sol
    rw [if_pos hx, hv, Option.bind_some, termOf_eq hw hdw]

include hst hr hload h hinj hn in
theorem part_safe {d : SCond} (hd : d ∈ parts p) : PlanGen.Spec.Safe db ns (filterOf P dict (enc get (p.meaning pre num) pre num d)) := by
  obtain ⟨h1, h2, h3, h4, h5⟩ := part_of h hd
  obtain ⟨_, e2⟩ := enc_eq (get := get) (pre := pre) h1 fun x hx => binds_of (h.occurs (num := num) (h2 x hx))
  intro g hg
  have key : ∀ x ∈ d.vars, ∃ i t, g (num x) = some i ∧ t.Ok ∧ dict i = some t.text ∧ SeenIn pre graph p.triples x t := by
    intro x hx
    have := hg (num x) (by show _ ∈ exprVars _; rw [e2]; exact List.mem_map_of_mem hx)
    match hgx : g (num x) with
    | none =>
      obtain ⟨t, ht, hxt⟩ := h.vars.1 (h2 x hx)
      obtain ⟨n, hn', e⟩ := encodeTriples_of hn _ (List.mem_map_of_mem (f := meaningOf pre num) ht)
      have hm : num x ∈ n.vars := by rw [node_vars e]; exact List.mem_map_of_mem hxt
      refine absurd ?_ (this.2 hgx n hn')
      rw [node_elemVars, List.mem_append, List.mem_append] at hm
      have var : ∀ {e : PElem Nat}, num x ∈ elemVars e → PElem.var (num x) = e := by
        intro e he
        cases e <;> simp only [elemVars, List.mem_singleton, List.not_mem_nil] at he
        rw [he]
      simp only [List.mem_cons, List.not_mem_nil, or_false]
      exact hm.imp var (.imp var var)
    | some i =>
      obtain ⟨t, ht, hdt, hs⟩ := seen_ok hst hload h hinj hn (h2 x hx) (this.1 i hgx)
      exact ⟨i, t, rfl, ht, hdt, hs⟩
  have hσ : ∀ x ∈ d.vars, ∃ i t, g (num x) = some i ∧ t.Ok ∧ dict i = some t.text ∧ (g (num x)).bind (termOf dict) = some t := by
    intro x hx
    obtain ⟨i, t, a, b, c, _⟩ := key x hx
    exact ⟨i, t, a, b, c, by rw [a, Option.bind_some, termOf_eq b c]⟩
  obtain ⟨b, hb⟩ := Option.isSome_iff_exists.1 (h5 (fun x => (g (num x)).bind (termOf dict)) fun x hx => by
    obtain ⟨i, t, a, b, c, s⟩ := key x hx
    exact ⟨t, by rw [a, Option.bind_some, termOf_eq b c], s⟩)
  exact (conj_ok hst hr h1 (fun x hx => h.occurs (h2 x hx)) hσ h3 h4 hb).1

include hst hr hload h hinj hn in
/-- The conditions hold for a choice if they are true for its solution. -/
theorem conds_holds {c : Choice} (hc : c ∈ choices db ns) (hf : fits c = true) (columns : List Text) :
    (p.conds.all fun d => d.truth P pre (sol dict num p.vars c) == some true) = (graphOf P get dict pre num p ns columns).filters.all fun f => f.holds (value c) := by
  have hval : ∀ x ∈ p.vars, ∃ i t, value c (num x) = some i ∧ t.Ok ∧ dict i = some t.text ∧ sol dict num p.vars c x = some t ∧ SeenIn pre graph p.triples x t := by
    intro x hx
    obtain ⟨t, ht, hxt⟩ := h.vars.1 hx
    obtain ⟨n, hn', e⟩ := encodeTriples_of hn _ (List.mem_map_of_mem (f := meaningOf pre num) ht)
    have hm : num x ∈ cvars c := by
      rw [cvars_choices hc, List.mem_flatMap]
      exact ⟨n, hn', by rw [node_vars e]; exact List.mem_map_of_mem hxt⟩
    obtain ⟨i, hi⟩ := value_isSome.2 hm
    obtain ⟨t, a, b, s⟩ := seen_ok hst hload h hinj hn hx (choices_seen hc hf hi)
    exact ⟨i, t, hi, a, b, by unfold sol; rw [if_pos hx, hi, Option.bind_some, termOf_eq a b], s⟩
  have key : ∀ d ∈ parts p, (d.truth P pre (sol dict num p.vars c) = some true ↔ (filterOf P dict (enc get (p.meaning pre num) pre num d)).holds (value c) = true) := by
    intro d hd
    obtain ⟨h1, h2, h3, h4, h5⟩ := part_of h hd
    obtain ⟨b, hb⟩ := Option.isSome_iff_exists.1 (h5 (sol dict num p.vars c) fun x hx => by
      obtain ⟨i, t, _, _, _, e, s⟩ := hval x (h2 x hx)
      exact ⟨t, e, s⟩)
    have := (conj_ok (num := num) hst hr h1 (fun x hx => h.occurs (h2 x hx)) (v := value c) (fun x hx => by
      obtain ⟨i, t, a, b, c, e, _⟩ := hval x (h2 x hx)
      exact ⟨i, t, a, b, c, e⟩) h3 h4 hb).2
    rw [this, hb]
    simp
  rw [Bool.eq_iff_iff, List.all_eq_true, List.all_eq_true]
  simp only [beq_iff_eq, graphOf, List.map_map, List.mem_map, Function.comp_apply, forall_exists_index, and_imp, forall_apply_eq_imp_iff₂]
  constructor
  · intro ha d hd
    obtain ⟨c', hc', hd'⟩ := List.mem_flatMap.1 hd
    exact (key d hd).1 (((conjuncts_spec (P := P) (get := get) (num := num) (g := Group.empty) (pre := pre) c').2.2 _).1 (ha c' hc') d hd')
  · intro ha c' hc'
    exact ((conjuncts_spec (P := P) (get := get) (num := num) (g := Group.empty) (pre := pre) c').2.2 _).2 fun d hd => (key d (List.mem_flatMap.2 ⟨c', hc', hd⟩)).2 (ha d (List.mem_flatMap.2 ⟨c', hc', hd⟩))

include hst hr hload h hinj hn in
/-- The answers of a group are those of its query graph. -/
theorem answers_graph {columns : List Text} (hcol : ∀ x ∈ columns, x ∈ p.vars) :
    (answers P pre graph p columns).map (fun r => r.map (Option.map Term.text)) =
      (PlanGen.Spec.answers db (graphOf P get dict pre num p ns columns)).map fun r => r.map fun o => o.bind dict := by
  unfold answers PlanGen.Spec.answers
  have hs := solutions_choices (V := p.vars) hst hinj hload p.triples ns h.pat hn [] rfl nofun
  rw [sol_nil] at hs
  rw [hs]
  simp only [List.nil_append, List.filter_map, List.filter_filter, List.map_map]
  have e1 : (choices db ns).filter (fun c => ((fun σ => p.conds.all fun c => c.truth P pre σ == some true) ∘ fun d => sol dict num p.vars d) c && fits c) =
      (choices db ns).filter fun c => fits c && (graphOf P get dict pre num p ns columns).filters.all fun f => f.holds (value c) := by
    refine List.filter_congr fun c hc => ?_
    by_cases hf : fits c = true
    · rw [hf, Bool.and_true, Bool.true_and, Function.comp_apply]
      exact conds_holds hst hr hload h hinj hn hc hf columns
    · simp only [Bool.not_eq_true] at hf
      simp [hf]
  rw [e1]
  refine List.map_congr_left fun c hc => ?_
  have hc' := (List.mem_filter.1 hc).1
  simp only [Function.comp_apply, List.map_map, graphOf]
  refine List.map_congr_left fun x hx => ?_
  simp only [Function.comp_apply]
  unfold sol
  rw [if_pos (hcol x hx)]
  cases hv : value c (num x) with
  | none => rfl
  | some v =>
    obtain ⟨t, ht, hdt⟩ := sto_choices hst hload hc' _ (mem_of_value hv)
    rw [Option.bind_some, Option.bind_some, termOf_eq ht hdt, Option.map_some, hdt]

/-- With a constant that is not stored there are no answers. -/
theorem answers_none {columns : List Text} (hst : Stored P get dict) (hload : Loaded get graph db) (h : GroupOk P get graph pre p)
    (hn : encodeTriples get (p.triples.map (meaningOf pre num)) = none) : answers P pre graph p columns = [] := by
  obtain ⟨m, hm, e⟩ := encodeTriples_none hn
  obtain ⟨t, ht, rfl⟩ := List.mem_map.1 hm
  unfold answers
  rw [solutions_nil (p := t) (fun u hu σ => by
    obtain ⟨d, _, hud⟩ := loaded_mem' hload u hu
    exact unknown_match hst (h.pat t ht) e hud σ) p.triples ht]
  rfl

end Graph

/-! ## Rows of plans -/

/-- The projected registers. -/
abbrev shown (q : PlanGen.Query) (plan : PlanGen.Plan) (t : Tup) : Tup := printed q (PlanGen.cols q (PlanGen.setOf (q.projection ++ q.order)) plan) t

theorem vars_stack {q : PlanGen.Query} {x : Nat} (ok : Nat → Bool) : ∀ (js : List Nat) (p' : PlanGen.Plan), x ∈ p'.vars q → x ∈ (PlanGen.stack ok p' js).vars q
  | [], _, h => h
  | j :: js, p', h => by
    have hs : PlanGen.stack ok p' (j :: js) = PlanGen.stack ok (if ok j then .filter j p' else p') js := rfl
    rw [hs]
    split
    · exact vars_stack ok js (.filter j p') h
    · exact vars_stack ok js p' h

/-- The cells of some columns of a row of a plan. -/
abbrev cellsOf (q : PlanGen.Query) (plan : PlanGen.Plan) (xs : List Nat) (t : Tup) : Tup := xs.map (PlanGen.look (PlanGen.cols q (PlanGen.setOf (q.projection ++ q.order)) plan) t)

theorem plan_rows (E : PlanGen.Est) (hE : E.Fair) {db : List PlanGen.Triple} {S : Scans} (hdb : ∀ t ∈ db, t.1 < 2 ^ 64 ∧ t.2.1 < 2 ^ 64 ∧ t.2.2 < 2 ^ 64)
    {q : PlanGen.Query} (hne : q.nodes ≠ []) (hwidth : q.nodes.length ≤ 64) (hvars : ∀ n ∈ q.nodes, n.vars.Nodup) (htied : PlanGen.Spec.Tied q)
    (hfilters : ∀ f ∈ q.filters, ∀ g g' : Nat → Option Nat, (∀ x ∈ f.vars, g x = g' x) → f.holds g = f.holds g') (hsafe : ∀ f ∈ q.filters, PlanGen.Spec.Safe db q.nodes f)
    (hproj : ∀ x ∈ q.projection ++ q.order, ∃ n ∈ q.nodes, x ∈ n.vars) (hS : PlanGen.ScansOf (S q) db q) :
    ∃ plan, PlanGen.translate E q = some plan ∧ (∃ rows, PlanGen.ExecOn (S q) q (PlanGen.setOf (q.projection ++ q.order)) plan rows) ∧
      (∀ x ∈ q.projection ++ q.order, x ∈ PlanGen.cols q (PlanGen.setOf (q.projection ++ q.order)) plan) ∧
      ∀ rows, PlanGen.ExecOn (S q) q (PlanGen.setOf (q.projection ++ q.order)) plan rows → (∀ r ∈ rows, r.1 ≠ 0) ∧
        (∀ xs, (∀ x ∈ xs, x ∈ q.projection ++ q.order) → ((expand rows).map fun t => (cellsOf q plan xs t).map some).Perm (PlanGen.Spec.answers db { q with projection := xs })) ∧
        ∀ r ∈ rows, ∀ r' ∈ rows, cellsOf q plan (q.projection ++ q.order) r.2 = cellsOf q plan (q.projection ++ q.order) r'.2 → r.2 = r'.2 := by
  have hq : PlanGen.Fine q := ⟨hvars, hfilters⟩
  obtain ⟨plan, hp, hf⟩ := PlanGen.translate_final hE hne hwidth
  obtain ⟨hw, hW, hU⟩ := PlanGen.final_wf hf
  have hcol : ∀ x ∈ q.projection ++ q.order, x ∈ PlanGen.cols q (PlanGen.setOf (q.projection ++ q.order)) plan := by
    intro x hxp
    refine (PlanGen.mem_cols hw hU x).2 ⟨PlanGen.mem_setOf.2 hxp, ?_⟩
    obtain ⟨p', ok, rfl, hw', _, hn, hl, _⟩ := hf.base
    obtain ⟨n, hn', hxn⟩ := hproj x hxp
    have hpm := (PlanGen.perm_range hn (PlanGen.leaves_lt hw') hl).map q.node
    rw [PlanGen.map_node] at hpm
    obtain ⟨i, hi, rfl⟩ := List.mem_map.1 (hpm.mem_iff.2 hn')
    have : x ∈ p'.vars q := PlanGen.mem_vars_leaf.2 ⟨i, hi, hxn⟩
    exact vars_stack ok _ p' this
  refine ⟨plan, hp, PlanGen.exec_exists_on hS hq htied hdb hsafe hw hW hU, hcol, fun rows hx => ?_⟩
  have hr := PlanGen.exec_rows hq hdb (PlanGen.exec_mono hS hx hw) hw hU
  have hshape : ∀ xs, (∀ x ∈ xs, x ∈ q.projection ++ q.order) → ∀ c : Choice,
      cellsOf q plan xs ((PlanGen.cols q (PlanGen.setOf (q.projection ++ q.order)) plan).map (val c)) = xs.map (val c) := by
    intro xs hxs c
    refine List.map_congr_left fun x hx => ?_
    rw [PlanGen.look_map' (hcol x (hxs x hx))]
  refine ⟨hr.pos, fun xs hxs => ?_, ?_⟩
  · refine (hr.perm.map _).trans ?_
    rw [List.map_map]
    have hmap : (PlanGen.sols db q plan).map ((fun t => (cellsOf q plan xs t).map some) ∘ fun c => (PlanGen.cols q (PlanGen.setOf (q.projection ++ q.order)) plan).map (val c)) =
        (PlanGen.sols db q plan).map fun c => xs.map (value c) := by
      refine List.map_congr_left fun c hc => ?_
      rw [Function.comp_apply, hshape xs hxs, List.map_map]
      refine List.map_congr_left fun x hx => ?_
      rw [Function.comp_apply, value_eq_val ((PlanGen.mem_sols hc).2 ▸ ((PlanGen.mem_cols hw hU x).1 (hcol x (hxs x hx))).2)]
    rw [hmap]
    obtain ⟨p', ok, rfl, hw', hs', hn', hl', hall⟩ := hf.base
    exact PlanGen.plan_values hq hw' hs' hn' hl' (fun j hj => List.mem_range.1 hj) (fun j hj => (hall j hj).imp id fun h => ⟨List.mem_range.2 hj, h⟩) xs
  · intro r hr1 r' hr2 e
    obtain ⟨c, _, h1⟩ := PlanGen.Rows.shape hr.pos hr.perm hr1
    obtain ⟨d, _, h2⟩ := PlanGen.Rows.shape hr.pos hr.perm hr2
    rw [h1, h2, hshape _ (fun _ h => h), hshape _ (fun _ h => h)] at e
    rw [h1, h2]
    refine List.map_congr_left fun x hx => ?_
    exact List.map_inj_left.1 e x (PlanGen.mem_setOf.1 ((PlanGen.mem_cols hw hU x).1 hx).1)

end Trident.Sparql.Parse
