import Verif.Sparql.QueryText
import Verif.Sparql.QueryAssume
import Verif.Sparql.FilterTextProofs
import Verif.Sparql.PlanSols
/-! # Whole queries: lemmas about solutions and choices -/
namespace Trident.Sparql.Parse

open Lex Spec
open Select (Expr Lib Cache Dict)
open Analysis (PElem)
open PlanGen (Choice Node cvars mem_cvars value_append fits_append fits_iff value_eq_val value_none value_isSome mem_of_value cvars_append val cvars_choices)
open PlanGen.Spec (value fits beside choices)

variable {F : Type} {P : Lib F} {get : GetNumber} {dict : Dict} {pre : List (Text × Text)} {num : Text → Nat} {V : List Text}

open Classical in
/-- The term of an id. -/
noncomputable def termOf (dict : Dict) (i : Nat) : Option Term := if h : ∃ t : Term, t.Ok ∧ dict i = some t.text then some h.choose else none

theorem termOf_eq {i : Nat} {t : Term} (h : t.Ok) (hd : dict i = some t.text) : termOf dict i = some t := by
  have hex : ∃ t : Term, t.Ok ∧ dict i = some t.text := ⟨t, h, hd⟩
  unfold termOf
  rw [dif_pos hex]
  have := hex.choose_spec
  exact congrArg some (text_inj h this.1 (Option.some.inj (hd.symm.trans this.2))).symm

/-- The solution of a choice. -/
noncomputable def sol (dict : Dict) (num : Text → Nat) (V : List Text) (c : Choice) : Sol := fun x => if x ∈ V then (value c (num x)).bind (termOf dict) else none

/-- All ids are those of terms. -/
def Sto (dict : Dict) (c : Choice) : Prop := ∀ e ∈ c, ∃ t : Term, t.Ok ∧ dict e.2 = some t.text

theorem encode_const (hst : Stored P get dict) {el : Elem} {t : Term} (hd : denotes el = some t) (ht : t.Const get) : encodeElem get el = (get t.text).map .const := by
  have key : encode get el = (get t.text).map (·, true) := by
    match el, hd with
    | .iri v, hd => cases hd; exact C81_iri get v
    | .lit v .none, hd => cases hd; exact C81_literal_partial hst.stores rfl (.inl ⟨v, rfl, ht.1⟩)
    | .lit v (.type d), hd => cases hd; exact C81_literal_partial hst.stores rfl (.inr ⟨v, d, rfl, ht.1, ht.2.2.2.2⟩)
    | .lit v (.lang _), hd => cases hd; exact absurd ht id
  unfold encodeElem
  rw [key, Option.map_map]
  rfl

theorem constant_of (num : Text → Nat) {e : SElem} (h : ∀ x, e ≠ .var x) : ∃ t, e.constant pre = some t ∧ denotes (e.meaning pre num) = some t ∧
    ∀ u σ, e.matches pre u σ = if t = u then some σ else none := by
  cases e with
  | var x => exact absurd rfl (h x)
  | _ => exact ⟨_, rfl, rfl, fun u σ => by simp [SElem.matches, SElem.constant, SElem.meaning, denotes]⟩

theorem get_inj (hst : Stored P get dict) {s t : Term} (hs : s.Ok) (ht : t.Ok) {v : Nat} (h1 : get s.text = some v) (h2 : get t.text = some v) : s = t := by
  rw [hst.agree] at h1 h2
  rw [h1] at h2
  exact text_inj hs ht (Option.some.inj h2)

theorem value_single_var (x y v : Nat) : value [(PElem.var x, v)] y = if x = y then some v else none := by
  unfold value
  by_cases h : x = y <;> simp [h]

theorem fits_single_var (x v : Nat) : fits [(PElem.var x, v)] = true := by
  unfold fits
  simp [value_single_var]

theorem fits_single_const (k v : Nat) : fits [(PElem.const k, v)] = decide (v = k) := by
  by_cases h : v = k <;> simp [fits, h]

theorem value_single_const (k v y : Nat) : value [(PElem.const k, v)] y = none := rfl

theorem elem_match (hst : Stored P get dict) (hinj : ∀ x ∈ V, ∀ y ∈ V, num x = num y → x = y) {e : SElem} (hv : ∀ x ∈ e.vars, x ∈ V)
    (hc : ∀ t, e.constant pre = some t → t.Const get) {n : PElem Nat} (hn : encodeElem get (e.meaning pre num) = some n) {t : Term} (ht : t.Ok) {v : Nat}
    (hg : get t.text = some v) {c : Choice} (hf : fits c = true) (hs : Sto dict c) :
    e.matches pre t (sol dict num V c) = if fits (c ++ [(n, v)]) = true then some (sol dict num V (c ++ [(n, v)])) else none := by
  by_cases hvar : ∃ x, e = .var x
  · obtain ⟨x, rfl⟩ := hvar
    have hx : x ∈ V := hv x (by simp [SElem.vars])
    have hn' : n = .var (num x) := (Option.some.inj hn).symm
    subst hn'
    have hd := (hst.agree _ _).1 hg
    simp only [SElem.matches]
    have hsol : sol dict num V c x = (value c (num x)).bind (termOf dict) := by unfold sol; rw [if_pos hx]
    cases hval : value c (num x) with
    | some w =>
      obtain ⟨u, hu, hdu⟩ := hs _ (mem_of_value hval)
      rw [hsol, hval, Option.bind_some, termOf_eq hu hdu]
      simp only
      have hfit : fits (c ++ [(PElem.var (num x), v)]) = true ↔ w = v := by
        rw [fits_append]
        constructor
        · rintro ⟨_, _, h⟩
          have := h (num x) (value_isSome.1 ⟨w, hval⟩) (mem_cvars.2 ⟨v, by simp⟩)
          simpa [val, hval, value_single_var] using this
        · rintro rfl
          refine ⟨hf, fits_single_var _ _, fun y _ hy => ?_⟩
          obtain ⟨_, h⟩ := mem_cvars.1 hy
          simp only [List.mem_singleton, Prod.mk.injEq, PElem.var.injEq] at h
          rw [h.1]
          simp [val, hval, value_single_var]
      by_cases hw : w = v
      · have hut : u = t := get_inj hst hu ht ((hst.agree _ _).2 (hw ▸ hdu)) hg
        rw [if_pos (hfit.2 hw), if_pos hut]
        congr 1
        funext y
        unfold sol
        by_cases hy : y ∈ V
        · rw [if_pos hy, if_pos hy, value_append]
          by_cases hxy : num x = num y
          · rw [← hxy, hval]; rfl
          · rw [value_single_var, if_neg hxy, Option.or_none]
        · rw [if_neg hy, if_neg hy]
      · have hut : u ≠ t := fun e => hw (by have := (hst.agree _ _).2 hdu; rw [e, hg] at this; exact (Option.some.inj this).symm)
        rw [if_neg (fun h => hw (hfit.1 h)), if_neg hut]
    | none =>
      rw [hsol, hval, Option.bind_none]
      simp only
      have hfit : fits (c ++ [(PElem.var (num x), v)]) = true := by
        refine fits_append.2 ⟨hf, fits_single_var _ _, fun y hy hy' => ?_⟩
        obtain ⟨_, h⟩ := mem_cvars.1 hy'
        simp only [List.mem_singleton, Prod.mk.injEq, PElem.var.injEq] at h
        obtain ⟨w, hw⟩ := value_isSome.2 hy
        rw [h.1, hval] at hw
        cases hw
      rw [if_pos hfit]
      congr 1
      funext y
      by_cases hyx : y = x
      · subst hyx
        rw [if_pos rfl]
        unfold sol
        rw [if_pos hx, value_append, hval, value_single_var, if_pos rfl]
        simp only [Option.none_or, Option.bind_some]
        exact (termOf_eq ht hd).symm
      · rw [if_neg hyx]
        unfold sol
        by_cases hy : y ∈ V
        · rw [if_pos hy, if_pos hy, value_append, value_single_var, if_neg (fun h => hyx (hinj x hx y hy h).symm), Option.or_none]
        · rw [if_neg hy, if_neg hy]
  · obtain ⟨u, h1, h2, h3⟩ := constant_of (pre := pre) num (e := e) fun x h => hvar ⟨x, h⟩
    have hcu := hc u h1
    rw [encode_const hst h2 hcu] at hn
    obtain ⟨k, hk, rfl⟩ := Option.map_eq_some_iff.1 hn
    rw [h3]
    have hsame : sol dict num V (c ++ [(PElem.const k, v)]) = sol dict num V c := by
      funext y
      unfold sol
      rw [value_append, value_single_const, Option.or_none]
    have hfit : fits (c ++ [(PElem.const k, v)]) = true ↔ v = k := by
      rw [fits_append, fits_single_const, decide_eq_true_eq]
      refine ⟨fun h => h.2.1, fun h => ⟨hf, h, fun y _ hy => ?_⟩⟩
      obtain ⟨_, h⟩ := mem_cvars.1 hy
      simp at h
    by_cases hvk : v = k
    · rw [if_pos (hfit.2 hvk), hsame, if_pos (get_inj hst hcu.ok ht hk (hvk ▸ hg))]
    · rw [if_neg fun h => hvk (hfit.1 h), if_neg]
      rintro rfl
      rw [hg] at hk
      exact hvk (Option.some.inj hk)

/-- What is assumed of a pattern: its variables are numbered, its constants can be looked up. -/
def PatOk (get : GetNumber) (pre : List (Text × Text)) (V : List Text) (p : STriple) : Prop :=
  ∀ e ∈ [p.1, p.2.1, p.2.2], (∀ x ∈ e.vars, x ∈ V) ∧ ∀ t, e.constant pre = some t → t.Const get

/-- The triple pattern with numbers of variables. -/
def meaningOf (pre : List (Text × Text)) (num : Text → Nat) (p : STriple) : Triple := (p.1.meaning pre num, p.2.1.meaning pre num, p.2.2.meaning pre num)

theorem encodeTriple_some {t : Triple} {n : Node} (h : encodeTriple get t = some n) :
    encodeElem get t.1 = some n.1 ∧ encodeElem get t.2.1 = some n.2.1 ∧ encodeElem get t.2.2 = some n.2.2 := by
  unfold encodeTriple at h
  obtain ⟨a, ha, h⟩ := Option.bind_eq_some_iff.1 h
  obtain ⟨b, hb, h⟩ := Option.bind_eq_some_iff.1 h
  obtain ⟨c, hc, h⟩ := Option.map_eq_some_iff.1 h
  subst h
  exact ⟨ha, hb, hc⟩

theorem Sto.append {a b : Choice} (ha : Sto dict a) (hb : Sto dict b) : Sto dict (a ++ b) := by
  intro e h
  rcases List.mem_append.1 h with h | h
  · exact ha e h
  · exact hb e h

theorem Sto.single (hst : Stored P get dict) {t : Term} (ht : t.Ok) {v : Nat} (hg : get t.text = some v) (n : PElem Nat) : Sto dict [(n, v)] := by
  intro e h
  rw [List.mem_singleton.1 h]
  exact ⟨t, ht, (hst.agree _ _).1 hg⟩

theorem Sto.beside (hst : Stored P get dict) {t : Term × Term × Term} {d : PlanGen.Triple} (h : StoredAs get t d) (n : Node) : Sto dict (beside n d) := by
  obtain ⟨⟨a, a'⟩, ⟨b, b'⟩, c, c'⟩ := h
  exact ((Sto.single hst a a' n.1).append (Sto.single hst b b' n.2.1)).append (Sto.single hst c c' n.2.2)

theorem triple_match (hst : Stored P get dict) (hinj : ∀ x ∈ V, ∀ y ∈ V, num x = num y → x = y) {p : STriple} (hp : PatOk get pre V p) {n : Node}
    (hn : encodeTriple get (meaningOf pre num p) = some n) {t : Term × Term × Term} {d : PlanGen.Triple} (ht : StoredAs get t d) {c : Choice} (hf : fits c = true) (hs : Sto dict c) :
    matchTriple pre p t (sol dict num V c) = if fits (c ++ beside n d) = true then some (sol dict num V (c ++ beside n d)) else none := by
  obtain ⟨n1, n2, n3⟩ := encodeTriple_some hn
  obtain ⟨⟨a, a'⟩, ⟨b, b'⟩, g, g'⟩ := ht
  have h1 := hp p.1 (by simp)
  have h2 := hp p.2.1 (by simp)
  have h3 := hp p.2.2 (by simp)
  have e1 : c ++ beside n d = (c ++ [(n.1, d.1)]) ++ ([(n.2.1, d.2.1)] ++ [(n.2.2, d.2.2)]) := by simp [beside]
  have e2 : c ++ beside n d = (c ++ [(n.1, d.1)] ++ [(n.2.1, d.2.1)]) ++ [(n.2.2, d.2.2)] := by simp [beside]
  unfold matchTriple
  rw [elem_match hst hinj h1.1 h1.2 n1 a a' hf hs]
  by_cases f1 : fits (c ++ [(n.1, d.1)]) = true
  · rw [if_pos f1, Option.bind_some, elem_match hst hinj h2.1 h2.2 n2 b b' f1 (hs.append (Sto.single hst a a' _))]
    by_cases f2 : fits (c ++ [(n.1, d.1)] ++ [(n.2.1, d.2.1)]) = true
    · rw [if_pos f2, Option.bind_some, elem_match hst hinj h3.1 h3.2 n3 g g' f2 ((hs.append (Sto.single hst a a' _)).append (Sto.single hst b b' _)), ← e2]
    · rw [if_neg f2, Option.bind_none, if_neg]
      intro h
      rw [e2] at h
      exact f2 (fits_append.1 h).1
  · rw [if_neg f1, Option.bind_none, if_neg]
    intro h
    rw [e1] at h
    exact f1 (fits_append.1 h).1

theorem flatMap_both {γ : Type} {f : Term × Term × Term → List γ} {g : PlanGen.Triple → List γ} : ∀ {l : List (Term × Term × Term)} {m : List PlanGen.Triple}, Loaded get l m →
    (∀ a b, StoredAs get a b → f a = g b) → l.flatMap f = m.flatMap g
  | _, _, .nil, _ => rfl
  | _, _, .cons h t, hfg => by rw [List.flatMap_cons, List.flatMap_cons, hfg _ _ h, flatMap_both t hfg]

theorem solutions_choices (hst : Stored P get dict) (hinj : ∀ x ∈ V, ∀ y ∈ V, num x = num y → x = y) {graph : List (Term × Term × Term)} {db : List PlanGen.Triple}
    (hload : Loaded get graph db) :
    ∀ (ps : List STriple) (ns : List Node), (∀ p ∈ ps, PatOk get pre V p) → encodeTriples get (ps.map (meaningOf pre num)) = some ns → ∀ c : Choice, fits c = true → Sto dict c →
      solutions pre graph ps (sol dict num V c) = ((choices db ns).filter fun d => fits (c ++ d)).map fun d => sol dict num V (c ++ d)
  | [], ns, _, hn, c, hf, _ => by
    cases hn
    simp [solutions, choices, hf]
  | p :: ps, ns, hp, hn, c, hf, hs => by
    rw [List.map_cons, encodeTriples] at hn
    obtain ⟨n, hn1, hn⟩ := Option.bind_eq_some_iff.1 hn
    obtain ⟨ns, hn2, rfl⟩ := Option.map_eq_some_iff.1 hn
    rw [solutions, choices, List.filter_flatMap, List.map_flatMap]
    refine flatMap_both hload fun t d htd => ?_
    rw [triple_match hst hinj (hp p (by simp)) hn1 htd hf hs, List.filter_map, List.map_map]
    by_cases h : fits (c ++ beside n d) = true
    · rw [if_pos h]
      simp only
      rw [solutions_choices hst hinj hload ps ns (fun p h => hp p (List.mem_cons_of_mem _ h)) hn2 _ h (hs.append (Sto.beside hst htd n))]
      have e1 : (fun e => fits (c ++ beside n d ++ e)) = ((fun e => fits (c ++ e)) ∘ fun x => beside n d ++ x) := by funext e; simp
      have e2 : (fun e => sol dict num V (c ++ beside n d ++ e)) = ((fun e => sol dict num V (c ++ e)) ∘ fun x => beside n d ++ x) := by funext e; simp
      rw [e1, e2]
    · rw [if_neg h]
      simp only
      symm
      rw [List.map_eq_nil_iff, List.filter_eq_nil_iff]
      intro e _ he
      rw [Function.comp_apply, ← List.append_assoc] at he
      exact h (fits_append.1 he).1

theorem solutions_nil {graph : List (Term × Term × Term)} {p : STriple} (h : ∀ t ∈ graph, ∀ σ, matchTriple pre p t σ = none) :
    ∀ (ps : List STriple), p ∈ ps → ∀ σ, solutions pre graph ps σ = []
  | q :: ps, hp, σ => by
    rw [solutions, List.flatMap_eq_nil_iff]
    intro t ht
    rcases List.mem_cons.1 hp with rfl | hp
    · rw [h t ht]
    · cases matchTriple pre q t σ with
      | none => rfl
      | some σ' => exact solutions_nil h ps hp σ'

/-- A constant that is not stored matches nothing. -/
theorem unknown_match (hst : Stored P get dict) {p : STriple} (hp : PatOk get pre V p) (hn : encodeTriple get (meaningOf pre num p) = none) {t : Term × Term × Term} {d : PlanGen.Triple}
    (ht : StoredAs get t d) (σ : Sol) : matchTriple pre p t σ = none := by
  have key : ∀ (e : SElem), (∀ t, e.constant pre = some t → t.Const get) → encodeElem get (e.meaning pre num) = none → ∀ (u : Term) (v : Nat), get u.text = some v → ∀ σ, e.matches pre u σ = none := by
    intro e hc he u v hu σ
    by_cases hvar : ∃ x, e = .var x
    · obtain ⟨x, rfl⟩ := hvar
      cases he
    · obtain ⟨w, h1, h2, h3⟩ := constant_of (pre := pre) num (e := e) fun x h => hvar ⟨x, h⟩
      rw [encode_const hst h2 (hc w h1), Option.map_eq_none_iff] at he
      rw [h3, if_neg]
      rintro rfl
      rw [he] at hu
      cases hu
  have h1 := (hp p.1 (by simp)).2
  have h2 := (hp p.2.1 (by simp)).2
  have h3 := (hp p.2.2 (by simp)).2
  obtain ⟨⟨_, a⟩, ⟨_, b⟩, _, c⟩ := ht
  unfold matchTriple
  unfold encodeTriple meaningOf at hn
  simp only at hn
  cases n1 : encodeElem get (p.1.meaning pre num) with
  | none => rw [key _ h1 n1 _ _ a]; rfl
  | some x =>
    cases n2 : encodeElem get (p.2.1.meaning pre num) with
    | none =>
      cases p.1.matches pre t.1 σ with
      | none => rfl
      | some σ => rw [Option.bind_some, key _ h2 n2 _ _ b]; rfl
    | some y =>
      cases n3 : encodeElem get (p.2.2.meaning pre num) with
      | none =>
        cases p.1.matches pre t.1 σ with
        | none => rfl
        | some σ =>
          rw [Option.bind_some]
          cases p.2.1.matches pre t.2.1 σ with
          | none => rfl
          | some σ => rw [Option.bind_some, key _ h3 n3 _ _ c]
      | some z => rw [n1, n2, n3] at hn; cases hn

theorem encodeTriples_none : ∀ {l : List Triple}, encodeTriples get l = none → ∃ t ∈ l, encodeTriple get t = none
  | t :: l, h => by
    cases ht : encodeTriple get t with
    | none => exact ⟨t, by simp, ht⟩
    | some n =>
      rw [encodeTriples, ht, Option.bind_some, Option.map_eq_none_iff] at h
      obtain ⟨u, hu, e⟩ := encodeTriples_none h
      exact ⟨u, List.mem_cons_of_mem _ hu, e⟩

theorem encodeTriples_length : ∀ {l : List Triple} {ns : List Node}, encodeTriples get l = some ns → ns.length = l.length
  | [], _, h => by cases h; rfl
  | t :: l, _, h => by
    rw [encodeTriples] at h
    obtain ⟨n, _, h⟩ := Option.bind_eq_some_iff.1 h
    obtain ⟨ns, hn, rfl⟩ := Option.map_eq_some_iff.1 h
    simp [encodeTriples_length hn]

theorem encodeTriples_mem : ∀ {l : List Triple} {ns : List Node}, encodeTriples get l = some ns → ∀ n ∈ ns, ∃ t ∈ l, encodeTriple get t = some n
  | [], _, h, n, hn => by cases h; cases hn
  | t :: l, _, h, n, hn => by
    rw [encodeTriples] at h
    obtain ⟨m, hm, h⟩ := Option.bind_eq_some_iff.1 h
    obtain ⟨ns, h2, rfl⟩ := Option.map_eq_some_iff.1 h
    rcases List.mem_cons.1 hn with rfl | hn
    · exact ⟨t, by simp, hm⟩
    · obtain ⟨u, hu, e⟩ := encodeTriples_mem h2 n hn
      exact ⟨u, List.mem_cons_of_mem _ hu, e⟩

theorem encodeTriples_at : ∀ {l : List Triple} {ns : List Node}, encodeTriples get l = some ns → ∀ i : Nat, ns[i]? = l[i]?.bind (encodeTriple get)
  | [], _, h, i => by cases h; rfl
  | t :: l, _, h, i => by
    rw [encodeTriples] at h
    obtain ⟨m, hm, h⟩ := Option.bind_eq_some_iff.1 h
    obtain ⟨ns, h2, rfl⟩ := Option.map_eq_some_iff.1 h
    cases i with
    | zero => simp [hm]
    | succ i => simpa using encodeTriples_at h2 i

theorem encodeTriples_of : ∀ {l : List Triple} {ns : List Node}, encodeTriples get l = some ns → ∀ t ∈ l, ∃ n ∈ ns, encodeTriple get t = some n
  | t :: l, _, h, u, hu => by
    rw [encodeTriples] at h
    obtain ⟨m, hm, h⟩ := Option.bind_eq_some_iff.1 h
    obtain ⟨ns, h2, rfl⟩ := Option.map_eq_some_iff.1 h
    rcases List.mem_cons.1 hu with rfl | hu
    · exact ⟨m, by simp, hm⟩
    · obtain ⟨n, hn, e⟩ := encodeTriples_of h2 u hu
      exact ⟨n, List.mem_cons_of_mem _ hn, e⟩

/-- A value of a variable in a choice is one that a single pattern gives it. -/
theorem choices_seen {db : List PlanGen.Triple} : ∀ {ns : List Node} {c : Choice}, c ∈ choices db ns → fits c = true → ∀ {x v : Nat}, value c x = some v → PlanGen.Spec.Seen db ns x v
  | [], c, hc, _, x, v, hv => by
    simp only [choices, List.mem_singleton] at hc
    subst hc
    cases hv
  | n :: ns, c, hc, hf, x, v, hv => by
    simp only [choices, List.mem_flatMap, List.mem_map] at hc
    obtain ⟨t, ht, d, hd, rfl⟩ := hc
    obtain ⟨f1, f2, _⟩ := fits_append.1 hf
    rw [value_append] at hv
    cases h : value (beside n t) x with
    | some w =>
      rw [h] at hv
      cases hv
      exact ⟨n, by simp, t, ht, f1, h⟩
    | none =>
      rw [h, Option.none_or] at hv
      obtain ⟨m, hm, r⟩ := choices_seen hd f2 hv
      exact ⟨m, List.mem_cons_of_mem _ hm, r⟩

theorem loaded_mem {g : List (Term × Term × Term)} {l : List PlanGen.Triple} (h : Loaded get g l) : ∀ t ∈ l, ∃ u ∈ g, StoredAs get u t := by
  induction h with
  | nil => exact nofun
  | cons a _ ih =>
    intro t ht
    rcases List.mem_cons.1 ht with rfl | ht
    · exact ⟨_, by simp, a⟩
    · obtain ⟨u, hu, e⟩ := ih t ht
      exact ⟨u, List.mem_cons_of_mem _ hu, e⟩

theorem loaded_mem' {g : List (Term × Term × Term)} {l : List PlanGen.Triple} (h : Loaded get g l) : ∀ u ∈ g, ∃ t ∈ l, StoredAs get u t := by
  induction h with
  | nil => exact nofun
  | cons a _ ih =>
    intro t ht
    rcases List.mem_cons.1 ht with rfl | ht
    · exact ⟨_, by simp, a⟩
    · obtain ⟨u, hu, e⟩ := ih t ht
      exact ⟨u, List.mem_cons_of_mem _ hu, e⟩

theorem sto_choices (hst : Stored P get dict) {graph : List (Term × Term × Term)} {db : List PlanGen.Triple} (hload : Loaded get graph db) :
    ∀ {ns : List Node} {c : Choice}, c ∈ choices db ns → Sto dict c
  | [], c, hc => by
    simp only [choices, List.mem_singleton] at hc
    subst hc
    exact nofun
  | n :: ns, c, hc => by
    simp only [choices, List.mem_flatMap, List.mem_map] at hc
    obtain ⟨t, ht, d, hd, rfl⟩ := hc
    obtain ⟨u, _, hu⟩ := loaded_mem hload t ht
    exact (Sto.beside hst hu n).append (sto_choices hst hload hd)

/-! ## Conditions -/

/-- The condition with ids. -/
def enc (get : GetNumber) (g : Group) (pre : List (Text × Text)) (num : Text → Nat) (c : SCond) : Expr := (encodeCond get g (c.meaning pre num)).getD .null

theorem operand_enc {g : Group} {c : SCond} (h : c.Operand) (hb : ∀ x ∈ c.vars, binds (num x) g = true) :
    ∃ e, encodeCond get g (c.meaning pre num) = some e ∧ exprVars e = c.vars.map num := by
  cases c with
  | elem e =>
    cases e with
    | var x =>
      refine ⟨.var (num x), ?_, rfl⟩
      simp only [SCond.meaning, SElem.meaning, ofElem, encodeCond]
      rw [if_pos (hb x (by simp [SCond.vars, SElem.vars]))]
    | _ => exact ⟨_, rfl, rfl⟩
  | int _ => exact ⟨_, rfl, rfl⟩
  | dec _ => exact ⟨_, rfl, rfl⟩
  | bool _ => exact ⟨_, rfl, rfl⟩
  | _ => exact absurd h id

theorem args_enc {g : Group} : ∀ {c : SCond}, c.Arguments → (∀ x ∈ c.vars, binds (num x) g = true) →
    ∃ e, encodeCond get g (c.meaning pre num) = some e ∧ exprVars e = c.vars.map num := by
  intro c
  induction c with
  | nil => intro _ _; exact ⟨.nil, rfl, rfl⟩
  | arg a rest _ ih =>
    intro h hb
    simp only [SCond.vars, List.mem_append] at hb
    obtain ⟨e, he, h1⟩ := operand_enc (get := get) (pre := pre) h.1 fun x hx => hb x (.inl hx)
    obtain ⟨f, hf, h2⟩ := ih h.2 fun x hx => hb x (.inr hx)
    exact ⟨.arg e f, by simp only [SCond.meaning, encodeCond, he, hf, Option.bind_some, Option.map_some], by simp [exprVars, h1, h2, SCond.vars]⟩
  | _ => intro h; exact absurd h id

theorem treated_enc {g : Group} : ∀ {c : SCond}, c.Treated → (∀ x ∈ c.vars, binds (num x) g = true) →
    ∃ e, encodeCond get g (c.meaning pre num) = some e ∧ exprVars e = c.vars.map num := by
  intro c
  induction c with
  | bin op a b iha ihb =>
    intro h hb
    simp only [SCond.vars, List.mem_append] at hb
    have two : (∃ e, encodeCond get g (a.meaning pre num) = some e ∧ exprVars e = a.vars.map num) → (∃ e, encodeCond get g (b.meaning pre num) = some e ∧ exprVars e = b.vars.map num) →
        ∀ f : Expr → Expr → Expr, encodeBin op = some f → (∀ x y, exprVars (f x y) = exprVars x ++ exprVars y) →
        ∃ e, encodeCond get g ((SCond.bin op a b).meaning pre num) = some e ∧ exprVars e = (SCond.bin op a b).vars.map num := by
      rintro ⟨e, he, h1⟩ ⟨e', he', h2⟩ f hf hv
      exact ⟨f e e', by simp only [SCond.meaning, encodeCond, he, he', hf, Option.bind_some, Option.map_some], by simp [hv, h1, h2, SCond.vars]⟩
    have ha := fun x hx => hb x (.inl hx)
    have hb' := fun x hx => hb x (.inr hx)
    cases op with
    | or => exact two (iha h.1 ha) (ihb h.2 hb') _ rfl fun _ _ => rfl
    | and => exact two (iha h.1 ha) (ihb h.2 hb') _ rfl fun _ _ => rfl
    | eq => exact two (operand_enc h.1 ha) (operand_enc h.2 hb') _ rfl fun _ _ => rfl
    | ne => exact two (operand_enc h.1 ha) (operand_enc h.2 hb') _ rfl fun _ _ => rfl
    | sameTerm => exact two (operand_enc h.1 ha) (operand_enc h.2 hb') _ rfl fun _ _ => rfl
    | lt => exact two (operand_enc h.1 ha) (operand_enc h.2 hb') _ rfl fun _ _ => rfl
    | gt => exact two (operand_enc h.1 ha) (operand_enc h.2 hb') _ rfl fun _ _ => rfl
    | le => exact two (operand_enc h.1 ha) (operand_enc h.2 hb') _ rfl fun _ _ => rfl
    | ge => exact two (operand_enc h.1 ha) (operand_enc h.2 hb') _ rfl fun _ _ => rfl
    | _ => exact absurd h id
  | un op a ih =>
    intro h hb
    have one : (∃ e, encodeCond get g (a.meaning pre num) = some e ∧ exprVars e = a.vars.map num) → ∀ f : Expr → Expr, encodeUn op = some f → (∀ x, exprVars (f x) = exprVars x) →
        ∃ e, encodeCond get g ((SCond.un op a).meaning pre num) = some e ∧ exprVars e = (SCond.un op a).vars.map num := by
      rintro ⟨e, he, h1⟩ f hf hv
      exact ⟨f e, by simp only [SCond.meaning, encodeCond, he, hf, Option.bind_some, Option.map_some], by simp [hv, h1, SCond.vars]⟩
    cases op with
    | not => exact one (ih h hb) _ rfl fun _ => rfl
    | isIri => exact one (operand_enc h hb) _ rfl fun _ => rfl
    | isLiteral => exact one (operand_enc h hb) _ rfl fun _ => rfl
    | _ => exact absurd h id
  | bound x =>
    intro _ hb
    refine ⟨.bound (num x), ?_, rfl⟩
    simp only [SCond.meaning, encodeCond]
    rw [if_pos (hb x (by simp [SCond.vars]))]
  | isIn a args _ _ =>
    intro h hb
    simp only [SCond.vars, List.mem_append] at hb
    obtain ⟨e, he, h1⟩ := operand_enc (get := get) (pre := pre) h.1 fun x hx => hb x (.inl hx)
    obtain ⟨f, hf, h2⟩ := args_enc (get := get) (pre := pre) h.2 fun x hx => hb x (.inr hx)
    exact ⟨.isIn e f, by simp only [SCond.meaning, encodeCond, he, hf, Option.bind_some, Option.map_some], by simp [exprVars, h1, h2, SCond.vars]⟩
  | _ => intro h; exact absurd h id

theorem enc_eq {g : Group} {c : SCond} (h : c.Treated) (hb : ∀ x ∈ c.vars, binds (num x) g = true) :
    encodeCond get g (c.meaning pre num) = some (enc get g pre num c) ∧ exprVars (enc get g pre num c) = c.vars.map num := by
  obtain ⟨e, he, hv⟩ := treated_enc (get := get) (pre := pre) h hb
  unfold enc
  rw [he]
  exact ⟨rfl, hv⟩

/-- What is inherited by the parts of a condition. -/
structure Part (pre : List (Text × Text)) (d c : SCond) : Prop where
  treated : c.Treated → d.Treated
  vars : ∀ x ∈ d.vars, x ∈ c.vars
  constants : ∀ t ∈ d.constants pre, t ∈ c.constants pre
  needed : ∀ t ∈ d.needed pre, t ∈ c.needed pre

theorem conjuncts_spec {g : Group} : ∀ (c : SCond), (∀ d ∈ c.conjuncts, Part pre d c) ∧
    (c.Treated → (∀ x ∈ c.vars, binds (num x) g = true) → encodeFilters get g (c.meaning pre num) = some (c.conjuncts.map (enc get g pre num))) ∧
    ∀ σ, c.truth P pre σ = some true ↔ ∀ d ∈ c.conjuncts, d.truth P pre σ = some true := by
  intro c
  have single : c.conjuncts = [c] → encodeFilters get g (c.meaning pre num) = (encodeCond get g (c.meaning pre num)).map (fun e => [e]) →
      (∀ d ∈ c.conjuncts, Part pre d c) ∧
      (c.Treated → (∀ x ∈ c.vars, binds (num x) g = true) → encodeFilters get g (c.meaning pre num) = some (c.conjuncts.map (enc get g pre num))) ∧
      ∀ σ, c.truth P pre σ = some true ↔ ∀ d ∈ c.conjuncts, d.truth P pre σ = some true := by
    intro h1 h2
    rw [h1]
    refine ⟨?_, fun ht hb => ?_, fun σ => by simp⟩
    · intro d hd
      rw [List.mem_singleton.1 hd]
      exact ⟨id, fun _ => id, fun _ => id, fun _ => id⟩
    · rw [h2, (enc_eq ht hb).1]
      rfl
  match c with
  | .bin .and a b =>
    obtain ⟨a1, a2, a3⟩ := conjuncts_spec (g := g) a
    obtain ⟨b1, b2, b3⟩ := conjuncts_spec (g := g) b
    refine ⟨?_, ?_, ?_⟩
    · intro d hd
      rw [SCond.conjuncts, List.mem_append] at hd
      rcases hd with hd | hd
      · have := a1 d hd
        exact ⟨fun h => this.treated h.1, fun x h => List.mem_append_left _ (this.vars x h), fun x h => List.mem_append_left _ (this.constants x h), fun x h => List.mem_append_left _ (this.needed x h)⟩
      · have := b1 d hd
        exact ⟨fun h => this.treated h.2, fun x h => List.mem_append_right _ (this.vars x h), fun x h => List.mem_append_right _ (this.constants x h), fun x h => List.mem_append_right _ (this.needed x h)⟩
    · intro ht hb
      simp only [SCond.vars, List.mem_append] at hb
      simp only [SCond.meaning, encodeFilters, a2 ht.1 fun x h => hb x (.inl h), b2 ht.2 fun x h => hb x (.inr h), Option.bind_some, Option.map_some, SCond.conjuncts, List.map_append]
    · intro σ
      simp only [SCond.conjuncts, List.mem_append, or_imp, forall_and, ← a3 σ, ← b3 σ]
      rw [SCond.truth]
      cases a.truth P pre σ with
      | none => simp
      | some x =>
        cases b.truth P pre σ with
        | none => simp
        | some y => simp
  | .elem e => cases e <;> exact single rfl rfl
  | .int _ | .dec _ | .bool _ | .regex .. | .replace .. | .call .. | .nil | .arg .. | .un _ _ | .isIn _ _ | .bound _ => exact single rfl rfl
  | .bin .or _ _ | .bin .eq _ _ | .bin .ne _ _ | .bin .sameTerm _ _ | .bin .lt _ _ | .bin .gt _ _ | .bin .le _ _ | .bin .ge _ _
  | .bin .add _ _ | .bin .sub _ _ | .bin .mul _ _ | .bin .div _ _ | .bin .contains _ _ | .bin .langMatches _ _ => exact single rfl rfl

theorem evalFilter_ok (hd : Select.DictOk P dict) {R : Nat → Nat} {e : Expr} (hs : Select.Small dict e) {b : Bool} (h : Select.Spec.holds P dict R e = some b) :
    evalFilter P dict e R = .ok b := by
  unfold evalFilter
  match hsp : Select.special e with
  | some (x, values, exclude) =>
    simp only
    rw [Select.special_spec hd hs h hsp]
  | none =>
    simp only
    obtain ⟨c', _, hch⟩ := Select.C79_check_partial hd R e hs b h _ (by apply Select.C79_start)
    rw [hch]
    rfl

/-- A condition is evaluated to its value. -/
theorem conj_ok (hst : Stored P get dict) (hr : ReadsIntegers P) {g : Group} {c : SCond} (ht : c.Treated) (ho : ∀ x ∈ c.vars, Occurs (num x) g) {v : Nat → Option Nat} {σ : Sol}
    (hv : ∀ x ∈ c.vars, ∃ i t, v (num x) = some i ∧ t.Ok ∧ dict i = some t.text ∧ σ x = some t) (hg : ∀ u ∈ c.constants pre, u.Const get)
    (hn : ∀ u ∈ c.needed pre, (get u.text).isSome = true) {b : Bool} (h : c.truth P pre σ = some b) :
    (filterOf P dict (enc get g pre num c)).ok v = true ∧ (filterOf P dict (enc get g pre num c)).holds v = b := by
  obtain ⟨e1, e2⟩ := enc_eq (get := get) (pre := pre) ht fun x hx => binds_of (ho x hx)
  have hh : ∀ x ∈ c.vars, Holds dict g (registers (enc get g pre num c) v) num σ x := by
    intro x hx
    obtain ⟨i, t, h1, h2, h3, h4⟩ := hv x hx
    refine ⟨ho x hx, t, h4, h2, ?_⟩
    unfold registers
    rw [if_pos (by rw [e2]; simpa using ⟨x, hx, rfl⟩), h1]
    exact h3
  obtain ⟨e, he, hs, hb⟩ := truth_ok hst hr c hh hg hn b h
  rw [e1] at he
  cases he
  have hev := evalFilter_ok (hst.dictOk hr) hs hb
  constructor
  · simp only [filterOf, hev, Bool.and_true, List.all_eq_true]
    intro y hy
    rw [e2] at hy
    obtain ⟨x, hx, rfl⟩ := List.mem_map.1 hy
    obtain ⟨i, _, h1, _⟩ := hv x hx
    rw [h1]; rfl
  · simp only [filterOf, hev]

theorem filterOf_local (P : Lib F) (dict : Dict) (e : Expr) (g g' : Nat → Option Nat) (h : ∀ x ∈ (filterOf P dict e).vars, g x = g' x) : (filterOf P dict e).holds g = (filterOf P dict e).holds g' := by
  have : registers e g = registers e g' := by
    funext x
    unfold registers
    by_cases hx : x ∈ exprVars e
    · rw [h x hx]
    · simp [hx]
  simp only [filterOf, this]

end Trident.Sparql.Parse
