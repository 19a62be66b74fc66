import Verif.Sparql.JsonOutputProofs
import Verif.Props.QueryText
import Verif.Props.StoreQuery
/-!
# C92: the JSON of the answers of a query

`RunJson`: the text that the Python module, the Java library and the server return for the text of a query.  `IsJson`: the text is JSON and stands for a document (RFC 8259).
`Spec.resultDoc`: the document that the answers should have.
-/
namespace Trident.Sparql.Parse

open Lex Spec
open Select (Expr Lib Dict)
open Trident.Http.Spec (IsJson Same)

variable {F : Type} {P : Lib F} {get : GetNumber} {dict : Dict} {graph : List (Term × Term × Term)} {db : List PlanGen.Triple}

theorem read_of {text : Text} {p : Parsed} {names : List (Text × Nat)} (h : readNamed text = .ok (p, names)) : readQuery text = .ok p := by
  unfold readQuery
  rw [h]; rfl

theorem cells_full {pre : List (Text × Text)} {p : Pat} {columns : List Text} (hg : GroupOk P get graph pre p) (hc : ∀ x ∈ columns, x ∈ p.vars)
    (hs : ∀ r ∈ answers P pre graph p columns, ∀ t, some t ∈ r → Term.Shown t) : ∀ r ∈ answers P pre graph p columns, Full r := by
  intro r hr c hcr
  obtain ⟨t, rfl, _⟩ := answers_bound (fun x hx => hg.vars.1 (hc x hx)) r hr c hcr
  exact ⟨t, rfl, hs r hr t hcr⟩

theorem names_map {names : List (Text × Nat)} {num : Text → Nat} {columns : List Text} {l : List Text} (h : ∀ x ∈ l, nameOf names (num x) = x) (hc : ∀ x ∈ columns, x ∈ l) :
    (columns.map num).map (nameOf names) = columns := by
  rw [List.map_map]
  have : columns.map (nameOf names ∘ num) = columns.map id := List.map_congr_left fun x hx => h x (hc x hx)
  rw [this, List.map_id]

section
variable {text : Text} {q : SQuery} {num : Text → Nat} {columns : List Text}

theorem transform_projection {p : Parsed} {qg : PlanGen.Query} (h : transform P get dict p = .ok (some qg)) : qg.projection = p.projection := by
  unfold transform at h
  split at h
  · split at h
    · cases h
    · split at h
      · cases h
      · cases hk : sortKeys p.group p.order with
        | error e => rw [hk] at h; cases h
        | ok ks =>
          rw [hk] at h
          cases h
          rfl
  · cases h

end

/-- The rows of the document without DISTINCT and LIMIT. -/
theorem all_json {qg : PlanGen.Query} {plan : PlanGen.Plan} {rows : List Row} {offset : Nat} (hpos : ∀ r ∈ rows, r.1 ≠ 0) (hlen : (expand rows).length < 2 ^ 32) :
    (Limit.output .expand (Limit.limitOf none) offset (rows.map fun r => (r.1, shown qg plan r.2))).map (fun t : Tup => t.map dict) =
      ((expand rows).map (texts dict qg plan)).drop offset := by
  have he := PlanGen.expand_map (shown qg plan) rows
  have hpos' : ∀ r ∈ rows.map fun r => (r.1, shown qg plan r.2), r.1 ≠ 0 := by
    intro r hr
    obtain ⟨r', h, rfl⟩ := List.mem_map.1 hr
    exact hpos r' h
  have hl := length_expand hpos
  have : Limit.output .expand (Limit.limitOf none) offset (rows.map fun r => (r.1, shown qg plan r.2)) = (expand (rows.map fun r => (r.1, shown qg plan r.2))).drop offset := by
    refine expand_drop _ hpos' offset 0 ?_
    rw [List.length_map]
    simp only [Limit.limitOf]
    omega
  rw [this, he, ← List.map_drop, ← List.map_drop, List.map_map]
  rfl

/-- With any scans that return the rows of the triples. -/
theorem json_on (E : PlanGen.Est) (hE : E.Fair) (hst : Stored P get dict) (hr : ReadsIntegers P) (hload : Loaded get graph db) (W : QueryWords) (q : SQuery)
    {slice : List Tok} {text : Text} (hprefixes : W.prefixes.length = q.prefixes.length ∧ (∀ p ∈ q.prefixes, 92 ∉ p.2) ∧ (q.prefixes.map (·.1)).Nodup)
    (hgroup : GroupOk P get graph q.prefixes q.pat) (htied : q.Tied) (hslice : SliceToks W slice q.limit q.offset) (hnames : ∀ l, q.columns = .names l → l ≠ [] ∧ ∀ x ∈ l, x ∈ q.pat.vars)
    (hdistinct : q.distinct = false) (hnolimit : q.limit = none) (htext : Written text (q.toks W slice)) (runtime : Text)
    {S : Scans} (hS : ∀ q : PlanGen.Query, (∀ n ∈ q.nodes, n.vars.Nodup) → PlanGen.ScansOf (S q) db q) :
    ∃ columns, q.Shows columns ∧ (columns ≠ [] → columns.Nodup → (answers P q.prefixes graph q.pat columns).length < 2 ^ 32 → q.offset < (answers P q.prefixes graph q.pat columns).length →
      (∀ r ∈ answers P q.prefixes graph q.pat columns, ∀ t, some t ∈ r → Term.Shown t) → (∃ out, RunJson E P get dict S runtime text out) ∧
      ∀ out, RunJson E P get dict S runtime text out → ∃ (l : List (List (Option Term))) (d : Http.Spec.Doc), l.Perm (answers P q.prefixes graph q.pat columns) ∧ IsJson out d ∧ Same (resultDoc columns (l.drop q.offset) runtime) d) := by
  obtain ⟨num, columns, names, hread, hshow, hinj, hname⟩ := readNamed_ok W q hprefixes.1 hprefixes.2.1 hprefixes.2.2 hgroup.ok hslice (fun e => (hnames [] e).1 rfl) htext
  have hcols : ∀ x ∈ columns, x ∈ q.pat.vars := by
    intro x hx
    unfold SQuery.Shows at hshow
    cases hc : q.columns with
    | star => rw [hc] at hshow; exact (hshow.2 x).1 hx
    | names l => rw [hc] at hshow; exact (hnames l hc).2 x (hshow ▸ hx)
  have hhas : ∀ x ∈ q.pat.vars, q.columns.Has x → x ∈ columns := by
    intro x hx hc
    unfold SQuery.Shows at hshow
    cases he : q.columns with
    | star => rw [he] at hshow; exact (hshow.2 x).2 hx
    | names l => rw [he] at hshow hc; exact hshow ▸ hc
  have hlimit : ∀ n, q.limit = some n → 0 < n := by
    intro n hn
    rw [hnolimit] at hn
    cases hn
  refine ⟨columns, hshow, fun hne hnd hlen hoff hshown => ?_⟩
  have hfull := cells_full hgroup hcols hshown
  rcases plan_of E hE hS ⟨read_of hread, hinj, hst, hr, hload, hgroup, hhas, hcols, htied, hlimit, nofun⟩ with ⟨ht, ha⟩ | ⟨qg, plan, ht, hp, ⟨rows, hx⟩, hrows⟩
  · rw [ha] at hoff
    simp at hoff
  · rw [hdistinct] at hread ht
    have hpr : qg.projection.map (nameOf names) = columns := by
      rw [transform_projection ht]
      exact names_map hname hcols
    have key : ∀ rows, PlanGen.ExecOn (S qg) qg (PlanGen.setOf (qg.projection ++ qg.order)) plan rows → ∃ l : List (List (Option Term)), l.Perm (answers P q.prefixes graph q.pat columns) ∧
        (Limit.output .expand (Limit.limitOf q.limit) q.offset (rows.map fun r => (r.1, shown qg plan r.2))).map (fun t : Tup => t.map dict) = (l.drop q.offset).map line ∧
        l.drop q.offset ≠ [] ∧ ∀ r ∈ l.drop q.offset, Full r := by
      intro rows hx
      obtain ⟨a1, a2, a3⟩ := hrows rows hx
      obtain ⟨l, h1, h2⟩ := perm_back a2.symm _ rfl
      refine ⟨l, h1, ?_, ?_, ?_⟩
      · rw [hnolimit, all_json a1, h2, List.map_drop]
        have := a2.length_eq
        rw [List.length_map, List.length_map] at this
        rw [this]; exact hlen
      · intro e
        have := congrArg List.length e
        rw [List.length_drop, h1.length_eq] at this
        simp at this
        omega
      · intro r hr
        exact hfull r (h1.mem_iff.1 (List.mem_of_mem_drop hr))
    refine ⟨?_, fun out h => ?_⟩
    · obtain ⟨l, h1, h2, h3, h4⟩ := key rows hx
      obtain ⟨b, s, t, g1, g2, g3, _⟩ := result_written (runtime := runtime) hne hnd h3 h4
      refine ⟨t, .rows hread rfl ht hp (.all hx) (bindings := b) (stats := s) ?_ ?_ ?_⟩
      · rw [hpr]; exact (congrArg (fun l => bindingsJson columns l .new) h2).trans g1
      · have := congrArg List.length h2
        rw [List.length_map, List.length_map] at this
        exact (congrArg (statsJson runtime) this).trans g2
      · rw [hpr]; exact g3
    · cases h with
      | failed h1 _ => rw [hread] at h1; cases h1
      | empty h1 h2 _ =>
        rw [hread] at h1
        cases h1
        rw [ht] at h2
        cases h2
      | rows h1 _ h2 h3 h4 h5 h6 h7 =>
        rw [hread] at h1
        cases h1
        rw [ht] at h2
        cases h2
        rw [hp] at h3
        cases h3
        cases h4 with
        | all hx =>
          obtain ⟨l, k1, k2, k3, k4⟩ := key _ hx
          obtain ⟨b, s, t, g1, g2, g3, d, g4, g5⟩ := result_written (runtime := runtime) hne hnd k3 k4
          have e1 := (congrArg (fun l => bindingsJson columns l .new) k2).trans g1
          rw [hpr] at h5 h7
          cases h5.symm.trans e1
          have := congrArg List.length k2
          rw [List.length_map, List.length_map] at this
          cases h6.symm.trans ((congrArg (statsJson runtime) this).trans g2)
          cases h7.symm.trans g3
          exact ⟨l, d, k1, g4, g5⟩

theorem map_back {α β : Type} {f : α → β} {a : List α} : ∀ {L : List β}, (∀ r ∈ L, r ∈ a.map f) → ∃ l : List α, L = l.map f ∧ ∀ r ∈ l, r ∈ a
  | [], _ => ⟨[], rfl, by simp⟩
  | x :: L, h => by
    obtain ⟨l, h1, h2⟩ := map_back (L := L) fun r hr => h r (by simp [hr])
    obtain ⟨y, hy, e⟩ := List.mem_map.1 (h x (by simp))
    exact ⟨y :: l, by rw [List.map_cons, e, h1], by simp [hy]; exact h2⟩

theorem nodup_back {α β : Type} {f : α → β} : ∀ {l : List α}, (l.map f).Nodup → l.Nodup
  | [], _ => .nil
  | a :: l, h => by
    rw [List.map_cons, List.nodup_cons] at h
    exact List.nodup_cons.2 ⟨fun hm => h.1 (List.mem_map_of_mem hm), nodup_back h.2⟩

theorem line_inj : ∀ {r s : List (Option Term)}, (∀ c ∈ r, ∃ t, c = some t ∧ t.Ok) → (∀ c ∈ s, ∃ t, c = some t ∧ t.Ok) → line r = line s → r = s
  | [], [], _, _, _ => rfl
  | [], _ :: _, _, _, e => by simp [line] at e
  | _ :: _, [], _, _, e => by simp [line] at e
  | a :: r, b :: s, hr, hs, e => by
    obtain ⟨t, rfl, ht⟩ := hr a (by simp)
    obtain ⟨u, rfl, hu⟩ := hs b (by simp)
    simp only [line, List.map_cons, List.cons.injEq, Option.map_some, Option.some.injEq] at e
    rw [text_inj ht hu e.1, line_inj (fun c hc => hr c (by simp [hc])) (fun c hc => hs c (by simp [hc])) e.2]

theorem loaded_ok {g : List (Term × Term × Term)} {l : List PlanGen.Triple} (h : Loaded get g l) : ∀ u ∈ g, ∀ t, inTriple t u → t.Ok := by
  intro u hu t ht
  obtain ⟨_, _, h1, h2, h3⟩ := loaded_mem' h u hu
  rcases ht with rfl | rfl | rfl
  · exact h1.1
  · exact h2.1
  · exact h3.1

/-- With any scans that return the rows of the triples. -/
theorem json_distinct_on (E : PlanGen.Est) (hE : E.Fair) (hst : Stored P get dict) (hr : ReadsIntegers P) (hload : Loaded get graph db) (W : QueryWords) (q : SQuery)
    {slice : List Tok} {text : Text} (hprefixes : W.prefixes.length = q.prefixes.length ∧ (∀ p ∈ q.prefixes, 92 ∉ p.2) ∧ (q.prefixes.map (·.1)).Nodup)
    (hgroup : GroupOk P get graph q.prefixes q.pat) (htied : q.Tied) (hslice : SliceToks W slice q.limit 0) (hoffset : q.offset = 0)
    (hnames : ∀ l, q.columns = .names l → l ≠ [] ∧ ∀ x ∈ l, x ∈ q.pat.vars) (hdistinct : q.distinct = true) (htext : Written text (q.toks W slice)) (runtime : Text)
    {S : Scans} (hS : ∀ q : PlanGen.Query, (∀ n ∈ q.nodes, n.vars.Nodup) → PlanGen.ScansOf (S q) db q) :
    ∃ columns, q.Shows columns ∧ (columns ≠ [] → columns.Nodup → (q.limit = none → (answers P q.prefixes graph q.pat columns).length < 2 ^ 32) → answers P q.prefixes graph q.pat columns ≠ [] →
      (∀ r ∈ answers P q.prefixes graph q.pat columns, ∀ t, some t ∈ r → Term.Shown t) → (∃ out, RunJson E P get dict S runtime text out) ∧
      ∀ out, RunJson E P get dict S runtime text out → ∃ (l : List (List (Option Term))) (d : Http.Spec.Doc), l.Nodup ∧ (∀ r, r ∈ l ↔ r ∈ answers P q.prefixes graph q.pat columns) ∧
        IsJson out d ∧ Same (resultDoc columns (Trident.Sparql.Spec.sliceOpt 0 q.limit l) runtime) d) := by
  rw [← hoffset] at hslice
  obtain ⟨num, columns, names, hread, hshow, hinj, hname⟩ := readNamed_ok W q hprefixes.1 hprefixes.2.1 hprefixes.2.2 hgroup.ok hslice (fun e => (hnames [] e).1 rfl) htext
  have hcols : ∀ x ∈ columns, x ∈ q.pat.vars := by
    intro x hx
    unfold SQuery.Shows at hshow
    cases hc : q.columns with
    | star => rw [hc] at hshow; exact (hshow.2 x).1 hx
    | names l => rw [hc] at hshow; exact (hnames l hc).2 x (hshow ▸ hx)
  have hhas : ∀ x ∈ q.pat.vars, q.columns.Has x → x ∈ columns := by
    intro x hx hc
    unfold SQuery.Shows at hshow
    cases he : q.columns with
    | star => rw [he] at hshow; exact (hshow.2 x).2 hx
    | names l => rw [he] at hshow hc; exact hshow ▸ hc
  have hlimit : ∀ n, q.limit = some n → 0 < n := by
    intro n hn
    rw [hn] at hslice
    generalize q.offset = o at hslice
    cases hslice <;> assumption
  refine ⟨columns, hshow, fun hne hnd hlen hsome hshown => ?_⟩
  have hfull := cells_full hgroup hcols hshown
  have hok : ∀ r ∈ answers P q.prefixes graph q.pat columns, ∀ c ∈ r, ∃ t, c = some t ∧ t.Ok := by
    intro r hr c hc
    obtain ⟨t, e, u, hu, ht⟩ := answers_bound (fun x hx => hgroup.vars.1 (hcols x hx)) r hr c hc
    exact ⟨t, e, loaded_ok hload u hu t ht⟩
  rcases plan_of E hE hS ⟨read_of hread, hinj, hst, hr, hload, hgroup, hhas, hcols, htied, hlimit, nofun⟩ with ⟨ht, ha⟩ | ⟨qg, plan, ht, hp, ⟨rows, hx⟩, hrows⟩
  · exact (hsome ha).elim
  · rw [hdistinct] at hread ht
    have hpr : qg.projection.map (nameOf names) = columns := by
      rw [transform_projection ht]
      exact names_map hname hcols
    have key : ∀ rows enum, (∀ n, (enum n).Perm (List.range n)) → PlanGen.ExecOn (S qg) qg (PlanGen.setOf (qg.projection ++ qg.order)) plan rows →
        ∃ l : List (List (Option Term)), l.Nodup ∧ (∀ r, r ∈ l ↔ r ∈ answers P q.prefixes graph q.pat columns) ∧
        (Limit.output .reduce (Limit.limitOf q.limit) q.offset ((Distinct.groupify enum rows).map fun r => (r.1, shown qg plan r.2))).map (fun t : Tup => t.map dict) =
          (Trident.Sparql.Spec.sliceOpt 0 q.limit l).map line ∧ Trident.Sparql.Spec.sliceOpt 0 q.limit l ≠ [] ∧ ∀ r ∈ Trident.Sparql.Spec.sliceOpt 0 q.limit l, Full r := by
      intro rows enum he hx
      obtain ⟨a1, a2, a3⟩ := hrows _ hx
      obtain ⟨L, b1, b2, b3⟩ := distinct_lines (dict := dict) hlimit (fun hn => by
        have := a2.length_eq
        rw [List.length_map, List.length_map] at this
        rw [this]
        exact hlen hn) a1 a3 enum he
      obtain ⟨l, rfl, hl⟩ := map_back (f := line) (a := answers P q.prefixes graph q.pat columns) fun r hr => a2.mem_iff.1 ((b2 r).1 hr)
      have hmem : ∀ r, r ∈ l ↔ r ∈ answers P q.prefixes graph q.pat columns := by
        intro r
        refine ⟨hl r, fun h => ?_⟩
        obtain ⟨r', h', e⟩ := List.mem_map.1 ((b2 (line r)).2 (a2.mem_iff.2 (List.mem_map_of_mem h)))
        rw [← line_inj (hok r' (hl r' h')) (hok r h) e]
        exact h'
      refine ⟨l, nodup_back b1, hmem, ?_, ?_, ?_⟩
      · rw [hoffset, b3]
        exact (sliceOpt_map line 0 q.limit l).symm
      · intro e
        have hl0 : l ≠ [] := by
          intro e
          apply hsome
          rw [List.eq_nil_iff_forall_not_mem]
          intro r hr
          rw [← hmem, e] at hr
          cases hr
        cases hn : q.limit with
        | none => rw [hn] at e; exact hl0 (by simpa [Trident.Sparql.Spec.sliceOpt] using e)
        | some n =>
          rw [hn] at e
          have := hlimit n hn
          have e := congrArg List.length e
          have := List.length_pos_iff.2 hl0
          simp only [Trident.Sparql.Spec.sliceOpt, Trident.Sparql.Spec.slice, List.length_take, List.length_drop, List.length_nil] at e
          omega
      · intro r hr
        refine hfull r (hl r ?_)
        cases hn : q.limit with
        | none => rw [hn] at hr; exact List.mem_of_mem_drop hr
        | some n => rw [hn] at hr; exact List.mem_of_mem_drop (List.mem_of_mem_take hr)
    refine ⟨?_, fun out h => ?_⟩
    · obtain ⟨l, h1, h1', h2, h3, h4⟩ := key rows List.range (fun _ => .refl _) hx
      obtain ⟨b, s, t, g1, g2, g3, _⟩ := result_written (runtime := runtime) hne hnd h3 h4
      refine ⟨t, .rows hread rfl ht hp (.distinct List.range (fun _ => .refl _) hx) (bindings := b) (stats := s) ?_ ?_ ?_⟩
      · rw [hpr]; exact (congrArg (fun l => bindingsJson columns l .new) h2).trans g1
      · have := congrArg List.length h2
        rw [List.length_map, List.length_map] at this
        exact (congrArg (statsJson runtime) this).trans g2
      · rw [hpr]; exact g3
    · cases h with
      | failed h1 _ => rw [hread] at h1; cases h1
      | empty h1 h2 _ =>
        rw [hread] at h1
        cases h1
        rw [ht] at h2
        cases h2
      | rows h1 _ h2 h3 h4 h5 h6 h7 =>
        rw [hread] at h1
        cases h1
        rw [ht] at h2
        cases h2
        rw [hp] at h3
        cases h3
        cases h4 with
        | distinct enum he hx =>
          obtain ⟨l, k1, k1', k2, k3, k4⟩ := key _ enum he hx
          obtain ⟨b, s, t, g1, g2, g3, d, g4, g5⟩ := result_written (runtime := runtime) hne hnd k3 k4
          have e1 := (congrArg (fun l => bindingsJson columns l .new) k2).trans g1
          rw [hpr] at h5 h7
          cases h5.symm.trans e1
          have := congrArg List.length k2
          rw [List.length_map, List.length_map] at this
          cases h6.symm.trans ((congrArg (statsJson runtime) this).trans g2)
          cases h7.symm.trans g3
          exact ⟨l, d, k1, k1', g4, g5⟩

/-! ## Theorems -/

/-- **C92 (SELECT, part).** For the text of a SELECT query without LIMIT, with an answer after the offset, a text is returned, and each text that can be returned is JSON for the document
with the columns and the answers: each answer as often as the query asks, in some order, without those that OFFSET leaves out.
Missing: as for `C86_select_partial`, and: LIMIT (`C73_json_limit_violated`), no answers (`C92_empty_violated`), blank nodes (`C92_blank_violated`), the IRI `<>`, and a column that is
shown twice. -/
theorem C92_select_partial (E : PlanGen.Est) (hE : E.Fair) (hst : Stored P get dict) (hr : ReadsIntegers P) (hload : Loaded get graph db) (W : QueryWords) (q : SQuery)
    {slice : List Tok} {text : Text} (hprefixes : W.prefixes.length = q.prefixes.length ∧ (∀ p ∈ q.prefixes, 92 ∉ p.2) ∧ (q.prefixes.map (·.1)).Nodup)
    (hgroup : GroupOk P get graph q.prefixes q.pat) (htied : q.Tied) (hslice : SliceToks W slice q.limit q.offset) (hnames : ∀ l, q.columns = .names l → l ≠ [] ∧ ∀ x ∈ l, x ∈ q.pat.vars)
    (hdistinct : q.distinct = false) (hnolimit : q.limit = none) (htext : Written text (q.toks W slice)) (runtime : Text) :
    ∃ columns, q.Shows columns ∧ (columns ≠ [] → columns.Nodup → (answers P q.prefixes graph q.pat columns).length < 2 ^ 32 → q.offset < (answers P q.prefixes graph q.pat columns).length →
      (∀ r ∈ answers P q.prefixes graph q.pat columns, ∀ t, some t ∈ r → Term.Shown t) → (∃ out, RunJson E P get dict (PlanGen.ScanRows db) runtime text out) ∧
      ∀ out, RunJson E P get dict (PlanGen.ScanRows db) runtime text out →
        ∃ (l : List (List (Option Term))) (d : Http.Spec.Doc), l.Perm (answers P q.prefixes graph q.pat columns) ∧ IsJson out d ∧ Same (resultDoc columns (l.drop q.offset) runtime) d) :=
  json_on E hE hst hr hload W q hprefixes hgroup htied hslice hnames hdistinct hnolimit htext runtime fun _ _ => PlanGen.scansOf_rows

/-- **C92 (SELECT DISTINCT, part).** With DISTINCT, perhaps with LIMIT, without OFFSET: the document has each answer once, as many as LIMIT says.
Missing: as for `C92_select_partial`, and OFFSET (`C73_distinct_offset_violated`); LIMIT is not missing. -/
theorem C92_distinct_partial (E : PlanGen.Est) (hE : E.Fair) (hst : Stored P get dict) (hr : ReadsIntegers P) (hload : Loaded get graph db) (W : QueryWords) (q : SQuery)
    {slice : List Tok} {text : Text} (hprefixes : W.prefixes.length = q.prefixes.length ∧ (∀ p ∈ q.prefixes, 92 ∉ p.2) ∧ (q.prefixes.map (·.1)).Nodup)
    (hgroup : GroupOk P get graph q.prefixes q.pat) (htied : q.Tied) (hslice : SliceToks W slice q.limit 0) (hoffset : q.offset = 0)
    (hnames : ∀ l, q.columns = .names l → l ≠ [] ∧ ∀ x ∈ l, x ∈ q.pat.vars) (hdistinct : q.distinct = true) (htext : Written text (q.toks W slice)) (runtime : Text) :
    ∃ columns, q.Shows columns ∧ (columns ≠ [] → columns.Nodup → (q.limit = none → (answers P q.prefixes graph q.pat columns).length < 2 ^ 32) → answers P q.prefixes graph q.pat columns ≠ [] →
      (∀ r ∈ answers P q.prefixes graph q.pat columns, ∀ t, some t ∈ r → Term.Shown t) → (∃ out, RunJson E P get dict (PlanGen.ScanRows db) runtime text out) ∧
      ∀ out, RunJson E P get dict (PlanGen.ScanRows db) runtime text out →
        ∃ (l : List (List (Option Term))) (d : Http.Spec.Doc), l.Nodup ∧ (∀ r, r ∈ l ↔ r ∈ answers P q.prefixes graph q.pat columns) ∧
        IsJson out d ∧ Same (resultDoc columns (Trident.Sparql.Spec.sliceOpt 0 q.limit l) runtime) d) :=
  json_distinct_on E hE hst hr hload W q hprefixes hgroup htied hslice hoffset hnames hdistinct htext runtime fun _ _ => PlanGen.scansOf_rows

/-- **C92 (over a loaded store, part).** Load triples with three or six indices, open the store and run the text of a SELECT query: the text that is returned is JSON for the answers.
Missing: as for `C92_select_partial`, one or two indices and the stores with other tables. -/
theorem C92_load_select_partial (c : Load.Config) (g : List Load.T3) (h : c.Ok g) (hg : g ≠ []) (hall : c.nindices = 3 ∨ c.nindices = 6) {m : Mem} {M : Nat → Load.Maps}
    (hM : ∀ i, i < 6 → Load.Mapped m (M i) (c.ins g i).store.files) (V : Env) (hV : SortsPairs V.sortP) (hf : g.length < V.fuel) (srt : List Int → List Int)
    (hnd : db.Nodup) (hdb : ∀ t, t ∈ db ↔ t ∈ g)
    (E : PlanGen.Est) (hE : E.Fair) (hst : Stored P get dict) (hr : ReadsIntegers P) (hload : Loaded get graph db) (W : QueryWords) (q : SQuery)
    {slice : List Tok} {text : Text} (hprefixes : W.prefixes.length = q.prefixes.length ∧ (∀ p ∈ q.prefixes, 92 ∉ p.2) ∧ (q.prefixes.map (·.1)).Nodup)
    (hgroup : GroupOk P get graph q.prefixes q.pat) (htied : q.Tied) (hslice : SliceToks W slice q.limit q.offset) (hnames : ∀ l, q.columns = .names l → l ≠ [] ∧ ∀ x ∈ l, x ∈ q.pat.vars)
    (hdistinct : q.distinct = false) (hnolimit : q.limit = none) (htext : Written text (q.toks W slice)) (runtime : Text) :
    ∃ columns, q.Shows columns ∧ (columns ≠ [] → columns.Nodup → (answers P q.prefixes graph q.pat columns).length < 2 ^ 32 → q.offset < (answers P q.prefixes graph q.pat columns).length →
      (∀ r ∈ answers P q.prefixes graph q.pat columns, ∀ t, some t ∈ r → Term.Shown t) → (∃ out, RunJson E P get dict (loadedScans c g m M V srt) runtime text out) ∧
      ∀ out, RunJson E P get dict (loadedScans c g m M V srt) runtime text out →
        ∃ (l : List (List (Option Term))) (d : Http.Spec.Doc), l.Perm (answers P q.prefixes graph q.pat columns) ∧ IsJson out d ∧ Same (resultDoc columns (l.drop q.offset) runtime) d) :=
  json_on E hE hst hr hload W q hprefixes hgroup htied hslice hnames hdistinct hnolimit htext runtime (scansOf_load c g h hg hall hM V hV hf srt hnd hdb)

/-! ## Examples -/

instance : DecidablePred Term.Shown := fun t => by
  cases t <;> unfold Term.Shown <;> infer_instance

theorem shown_all {l : List (List (Option Term))} (h : (l.all fun r => r.all fun c => c.all fun t => decide (Term.Shown t)) = true) : ∀ r ∈ l, ∀ t, some t ∈ r → Term.Shown t := by
  intro r hr t ht
  rw [List.all_eq_true] at h
  have h := h r hr
  rw [List.all_eq_true] at h
  have h := h _ ht
  simpa using h

/-- `SELECT ?s ?v WHERE { ?s e:p ?o ; e:q ?v FILTER(?o < 10) } OFFSET 1` -/
def query8 : SQuery := ⟨preE, false, .names [str "s", str "v"], pat4, none, 1⟩

theorem slice8 : SliceToks capsQuery [ident (str "OFFSET"), int1 "1"] none 1 := .offset (o := str "1") (by decide) (by decide)

/-- One of the two answers of the example is in its document. -/
example : ∃ out, RunJson PlanGen.exampleEst intLib (ofTerms cells2) (dictOf cells2) (PlanGen.ScanRows db2) (str "0.01")
      (printAll (query8.toks capsQuery [ident (str "OFFSET"), int1 "1"])) out ∧
    ∃ r d, IsJson out d ∧ Same (resultDoc [str "s", str "v"] [r] (str "0.01")) d ∧ r ∈ answers intLib preE graph2 pat4 [str "s", str "v"] := by
  obtain ⟨columns, hc, hrun⟩ := C92_select_partial PlanGen.exampleEst fairEst cells2_stored intLib_reads loaded2 capsQuery query8 ⟨rfl, by decide +kernel, by decide⟩ pat4_group tied4 slice8 names4 rfl rfl
    (written_print (query8.toks capsQuery _) (by decide +kernel)) (str "0.01")
  have hc : columns = [str "s", str "v"] := hc
  subst hc
  have h2 : (answers intLib preE graph2 pat4 [str "s", str "v"]).length = 2 := by decide +kernel
  obtain ⟨⟨out, ho⟩, hout⟩ := hrun (by simp) (by decide +kernel) (by show (answers intLib preE graph2 pat4 [str "s", str "v"]).length < _; rw [h2]; decide)
    (by show 1 < (answers intLib preE graph2 pat4 [str "s", str "v"]).length; rw [h2]; decide) (shown_all (by decide +kernel))
  obtain ⟨l, d, hl, h3, h4⟩ := hout out ho
  have hlen : l.length = 2 := hl.length_eq.trans h2
  match l, hlen with
  | [a, b], _ => exact ⟨out, ho, b, d, h3, h4, hl.mem_iff.1 (by simp)⟩

/-- `SELECT DISTINCT ?s ?v WHERE { ... }` -/
def query9 : SQuery := ⟨preE, true, .names [str "s", str "v"], pat4, none, 0⟩

example : ∃ out, RunJson PlanGen.exampleEst intLib (ofTerms cells2) (dictOf cells2) (PlanGen.ScanRows db2) (str "0.01") (printAll (query9.toks capsQuery [])) out := by
  obtain ⟨columns, hc, hrun⟩ := C92_distinct_partial PlanGen.exampleEst fairEst cells2_stored intLib_reads loaded2 capsQuery query9 ⟨rfl, by decide +kernel, by decide⟩ pat4_group tied4 .none rfl names4 rfl
    (written_print (query9.toks capsQuery _) (by decide +kernel)) (str "0.01")
  have hc : columns = [str "s", str "v"] := hc
  subst hc
  have h2 : (answers intLib preE graph2 pat4 [str "s", str "v"]).length = 2 := by decide +kernel
  exact (hrun (by simp) (by decide +kernel) (fun _ => by show (answers intLib preE graph2 pat4 [str "s", str "v"]).length < _; rw [h2]; decide)
    (fun e => by have := h2.symm.trans (congrArg List.length e); cases this) (shown_all (by decide +kernel))).1

/-! ## What is wrong -/

theorem mem_same {l l' : List (Text × Http.Spec.Doc)} (h : Http.Spec.SameMembers l l') {k : Text} {d : Http.Spec.Doc} (hm : (k, d) ∈ l) : ∃ d', (k, d') ∈ l' ∧ Same d d' := by
  match h with
  | .nil => cases hm
  | .cons hs ht =>
    rcases List.mem_cons.1 hm with e | hm
    · cases e
      exact ⟨_, by simp, hs⟩
    · obtain ⟨d', h1, h2⟩ := mem_same ht hm
      exact ⟨d', by simp [h1], h2⟩

/-- A document without bindings is not the document of any answers. -/
theorem no_bindings {v s : Http.Json} {t : Text} {d : Http.Spec.Doc} (hw : Http.write (resultJson v .new s) = some t) (hd : IsJson t d) (columns : List Text)
    (rows : List (List (Option Term))) (runtime : Text) : ¬Same (resultDoc columns rows runtime) d := by
  rw [Http.IsJson.det hd (Http.write_isJson hw)]
  have e : Http.meaning (resultJson v .new s) = .obj [(str "head", .obj [(str "vars", Http.meaning v)]), (str "results", .obj [(str "bindings", .obj [])]), (str "stats", Http.meaning s)] := by
    have k1 : ¬(str "results" = str "head") := by decide
    have k2 : ¬(str "results" < str "head") := by decide
    have k3 : ¬(str "stats" = str "head") := by decide
    have k4 : ¬(str "stats" < str "head") := by decide
    have k5 : ¬(str "stats" = str "results") := by decide
    have k6 : ¬(str "stats" < str "results") := by decide
    simp [resultJson, Http.Json.new, Http.Json.addChild, Http.insert, Http.meaning, Http.meanMembers, k1, k2, k3, k4, k5, k6]
  rw [e]
  intro h
  cases h with
  | obj hm hp =>
    obtain ⟨d1, h1, h2⟩ := mem_same hm (k := str "results") (d := .obj [(str "bindings", .arr (rows.map fun r => .obj (rowMembers columns r)))]) (by simp)
    have h1 := hp.mem_iff.1 h1
    have k1 : ¬(str "results" = str "head") := by decide
    have k5 : ¬(str "results" = str "stats") := by decide
    simp [k1, k5] at h1
    subst h1
    cases h2 with
    | obj hm hp =>
      obtain ⟨d2, h3, h4⟩ := mem_same hm (k := str "bindings") (d := .arr (rows.map fun r => .obj (rowMembers columns r))) (by simp)
      have h3 := hp.mem_iff.1 h3
      simp at h3
      subst h3
      cases h4

/-- A query with a property that the store does not have. -/
def unknownText : Text := str "select ?s { ?s <http://nowhere> ?o }"

/-- The query is known to have no answers. -/
def knownEmpty : Except Err (Option PlanGen.Query) → Bool
  | .ok none => true
  | _ => false

/-- **C92 is false if there are no answers**: the document has no array of bindings, and no columns either if a constant is not in the store. -/
theorem C92_empty_violated (E : PlanGen.Est) (runtime : Text) : (∃ p, readNamed unknownText = .ok p) ∧
    (∃ out, RunJson E intLib (ofTerms cells2) (dictOf cells2) (PlanGen.ScanRows db2) runtime unknownText out) ∧
    ∀ out, RunJson E intLib (ofTerms cells2) (dictOf cells2) (PlanGen.ScanRows db2) runtime unknownText out →
      out = str "{\"head\" : {\"vars\" : {}},\"results\" : {\"bindings\" : {}},\"stats\" : {}}" ∧ ∀ d columns rows runtime, IsJson out d → ¬Same (resultDoc columns rows runtime) d := by
  have key : knownEmpty ((readNamed unknownText).bind fun p => transform intLib (ofTerms cells2) (dictOf cells2) p.1) = true := by decide +kernel
  have hw : Http.write (resultJson .new .new .new) = some (str "{\"head\" : {\"vars\" : {}},\"results\" : {\"bindings\" : {}},\"stats\" : {}}") := by decide +kernel
  cases hr : readNamed unknownText with
  | error e => rw [hr] at key; cases key
  | ok p =>
    rw [hr] at key
    have ht : transform intLib (ofTerms cells2) (dictOf cells2) p.1 = .ok none := by
      simp only [Except.bind] at key
      unfold knownEmpty at key
      split at key
      · assumption
      · cases key
    refine ⟨⟨p, rfl⟩, ⟨_, .empty hr ht hw⟩, fun out h => ?_⟩
    have hout : Http.write (resultJson .new .new .new) = some out := by
      cases h with
      | failed h1 h2 => exact h2
      | empty _ _ h2 => exact h2
      | rows h1 _ h2 =>
        rw [hr] at h1
        cases h1
        rw [ht] at h2
        cases h2
    rw [hw] at hout
    cases hout
    exact ⟨rfl, fun d columns rows runtime hd => no_bindings hw hd columns rows runtime⟩

/-- **C92 is false for blank nodes**: they are shown as literals, and a blank node and a literal with its text are the same. -/
theorem C92_blank_violated : ∃ t u : Term, t.Ok ∧ u.Ok ∧ t ≠ u ∧ cellJson (some t.text) = cellJson (some u.text) :=
  ⟨.blank (str "b"), .plain (str "_:b"), show 62 ∉ str "b" by decide +kernel, show quoted (str "_:b") = true by decide +kernel, nofun, by
    simp only [cellJson]
    have : shownTerm (Term.blank (str "b")).text = shownTerm (Term.plain (str "_:b")).text := by decide +kernel
    rw [this]⟩

/-- **C92 is false for the IRI `<>`**: it is shown as the literal `<>`. -/
theorem C92_iri_violated : cellJson (some (Term.iri []).text) = Http.make (.obj [(str "type", .str (str "literal")), (str "value", .str (str "<>"))]) := by
  simp [cellJson, shownTerm, Term.text, Http.make, Http.makeObj, Http.Json.put, Http.Json.new, str]

/-- **C92 is false for a column without a term**: it is shown as the literal `NULL`. -/
theorem C92_unbound_violated : rowJson [str "x"] [none] .new = Http.make (.obj [(str "x", .obj [(str "type", .str (str "literal")), (str "value", .str (str "NULL"))])]) := by
  simp [rowJson, cellJson, Http.make, Http.makeObj, Http.Json.put, Http.Json.new, str]

end Trident.Sparql.Parse
