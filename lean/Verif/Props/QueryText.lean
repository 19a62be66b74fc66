import Verif.Sparql.QueryParseProofs
import Verif.Sparql.QueryRunProofs
import Verif.Props.FilterText
/-!
# C86: the output of a query

The theorems go from the bytes of a SELECT query to the lines of its output.  `Written text (q.toks W slice)` (`Lex.Written`): the text is that of the query `q`, with any
white space and comments.  `Spec.answers`: the answers that the query asks for, over triples of RDF terms.  `Run`: the lines that the program writes, for the estimates `E` of
the optimizer.  `Stored`: the dictionary; `Loaded`: the store has the ids of the triples; `GroupOk`: the groups that are treated.
-/
namespace Trident.Sparql.Parse

open Lex Spec
open Select (Expr Lib Dict)

variable {F : Type} {P : Lib F} {get : GetNumber} {dict : Dict} {graph : List (Term × Term × Term)} {db : List PlanGen.Triple}

/-- The texts of the terms of a line. -/
abbrev line (r : List (Option Term)) : List (Option Text) := r.map (Option.map Term.text)

/-! ## Lines of plans -/

/-- A query that is read, with the store and the group of the theorems. -/
structure Read (P : Lib F) (get : GetNumber) (dict : Dict) (graph : List (Term × Term × Term)) (db : List PlanGen.Triple) (text : Text) (q : SQuery) (num : Text → Nat)
    (columns : List Text) (ks : List SKey) : Prop where
  read : readQuery text = .ok ⟨if q.distinct then .distinct else .none, columns.map num, q.pat.meaning q.prefixes num, q.limit, q.offset, ks.map (SKey.meaning num)⟩
  inj : ∀ x ∈ q.pat.vars, ∀ y ∈ q.pat.vars, num x = num y → x = y
  stored : Stored P get dict
  integers : ReadsIntegers P
  loaded : Loaded get graph db
  group : GroupOk P get graph q.prefixes q.pat
  has : ∀ x ∈ q.pat.vars, q.columns.Has x → x ∈ columns
  columns : ∀ x ∈ columns, x ∈ q.pat.vars
  tied : q.Tied
  limit : ∀ n, q.limit = some n → 0 < n
  keys : ∀ k ∈ ks, k.name ∈ q.pat.vars

/-- The rows of a plan, as texts. -/
abbrev texts (dict : Dict) (qg : PlanGen.Query) (plan : PlanGen.Plan) (t : Tup) : List (Option Text) := (shown qg plan t).map dict

theorem sliceOpt_map {α β : Type} (f : α → β) (o : Nat) (n : Option Nat) (l : List α) : (Trident.Sparql.Spec.sliceOpt o n l).map f = Trident.Sparql.Spec.sliceOpt o n (l.map f) := by
  cases n <;> simp [Trident.Sparql.Spec.sliceOpt, Trident.Sparql.Spec.slice, List.map_drop, List.map_take]

theorem conjuncts_vars {x : Text} : ∀ {c : SCond}, x ∈ c.vars → ∃ d ∈ c.conjuncts, x ∈ d.vars := by
  intro c
  induction c with
  | bin op a b ih1 ih2 =>
    intro h
    cases op with
    | and =>
      simp only [SCond.vars, List.mem_append] at h
      simp only [SCond.conjuncts, List.mem_append]
      rcases h with h | h
      · obtain ⟨d, hd, h⟩ := ih1 h
        exact ⟨d, .inl hd, h⟩
      · obtain ⟨d, hd, h⟩ := ih2 h
        exact ⟨d, .inr hd, h⟩
    | _ => exact ⟨_, by simp [SCond.conjuncts], h⟩
  | _ => exact fun h => ⟨_, by simp [SCond.conjuncts], h⟩

theorem tied_elem {n : PlanGen.Node} {k : Nat} {t : STriple} {pre : List (Text × Text)} {num : Text → Nat} (h : encodeTriple get (meaningOf pre num t) = some n)
    (hk : Analysis.PElem.const k ∈ [n.1, n.2.1, n.2.2]) : ∃ e ∈ [t.1, t.2.1, t.2.2], e.vars = [] := by
  obtain ⟨h1, h2, h3⟩ := encodeTriple_some h
  simp only [List.mem_cons, List.not_mem_nil, or_false] at hk
  have key : ∀ {e : SElem}, ([] : List Nat) = e.vars.map num → e.vars = [] := fun h => List.map_eq_nil_iff.1 h.symm
  rcases hk with hk | hk | hk
  · exact ⟨t.1, by simp, key (by rw [← elem_vars h1, ← hk]; rfl)⟩
  · exact ⟨t.2.1, by simp, key (by rw [← elem_vars h2, ← hk]; rfl)⟩
  · exact ⟨t.2.2, by simp, key (by rw [← elem_vars h3, ← hk]; rfl)⟩

/-- The variables of the graph are elsewhere if those of the text are. -/
theorem graph_tied {text : Text} {q : SQuery} {num : Text → Nat} {columns : List Text} {ks : List SKey} {ns : List PlanGen.Node} (h : Read P get dict graph db text q num columns ks)
    (hn : encodeTriples get (q.pat.triples.map (meaningOf q.prefixes num)) = some ns) : PlanGen.Spec.Tied (graphOf P get dict q.prefixes num q.pat ns columns (ks.map SKey.name)) := by
  rintro i n hi ⟨k, hk⟩ a b hab ha hb
  have hat : ∀ (i : Nat) (n : PlanGen.Node), ns[i]? = some n → ∃ t, q.pat.triples[i]? = some t ∧ encodeTriple get (meaningOf q.prefixes num t) = some n := by
    intro i n hi
    rw [encodeTriples_at hn i, List.getElem?_map] at hi
    obtain ⟨u, hu, e⟩ := Option.bind_eq_some_iff.1 hi
    obtain ⟨t, ht, rfl⟩ := Option.map_eq_some_iff.1 hu
    exact ⟨t, ht, e⟩
  obtain ⟨t, ht, e⟩ := hat i n hi
  have hmem : t ∈ q.pat.triples := List.mem_of_getElem? ht
  have hvar : ∀ {a}, Analysis.PElem.var a ∈ [n.1, n.2.1, n.2.2] → ∃ x ∈ tripleVars t, num x = a := fun ha => by
    have := PlanGen.vars_elems.2 ha
    rw [node_vars e] at this
    exact List.mem_map.1 this
  obtain ⟨x, hx, rfl⟩ := hvar ha
  obtain ⟨y, hy, rfl⟩ := hvar hb
  have key : ∀ x ∈ tripleVars t, q.Elsewhere i x → PlanGen.Spec.Elsewhere (graphOf P get dict q.prefixes num q.pat ns columns (ks.map SKey.name)) i (num x) := by
    rintro x hx (h1 | ⟨c, hc, h1⟩ | ⟨j, u, hj, hu, h1⟩)
    · exact .inl (List.mem_map_of_mem (h.has x (h.group.vars.2 ⟨t, hmem, hx⟩) h1))
    · obtain ⟨d, hd, h2⟩ := conjuncts_vars h1
      have hp : d ∈ parts q.pat := List.mem_flatMap.2 ⟨c, hc, hd⟩
      refine .inr (.inr (.inl ⟨_, List.mem_map_of_mem (List.mem_map_of_mem hp), ?_⟩))
      obtain ⟨h3, h4, _⟩ := part_of h.group hp
      obtain ⟨_, e2⟩ := enc_eq (get := get) (pre := q.prefixes) h3 fun x hx => binds_of (h.group.occurs (num := num) (h4 x hx))
      show num x ∈ exprVars _
      rw [e2]
      exact List.mem_map_of_mem h2
    · refine .inr (.inr (.inr ⟨j, ?_⟩))
      have hlt : j < ns.length := by
        have := encodeTriples_length hn
        rw [List.length_map] at this
        rw [this]
        exact (List.getElem?_eq_some_iff.1 hu).1
      have hj' := List.getElem?_eq_getElem hlt
      obtain ⟨u', hu', e'⟩ := hat j _ hj'
      rw [hu] at hu'
      cases hu'
      exact ⟨_, hj, hj', PlanGen.vars_elems.1 (by rw [node_vars e']; exact List.mem_map_of_mem h1)⟩
  exact (h.tied i t ht (tied_elem e hk) x hx y hy (fun e => hab (e ▸ rfl))).imp (key x hx) (key y hy)

section Plans

variable {text : Text} {q : SQuery} {num : Text → Nat} {columns : List Text} {ks : List SKey} (E : PlanGen.Est) (hE : E.Fair)
  {S : Scans} (hS : ∀ q : PlanGen.Query, (∀ n ∈ q.nodes, n.vars.Nodup) → PlanGen.ScansOf (S q) db q)

/-- Ids of terms that are stored are equal if the terms are. -/
theorem dict_inj (hst : Stored P get dict) : ∀ l l' : List Nat, (∀ i ∈ l, ∃ t, dict i = some t) → l.map dict = l'.map dict → l = l' := by
  intro l
  induction l with
  | nil => intro l' _ e; cases l' with | nil => rfl | cons => cases e
  | cons i l ih =>
    intro l' hl e
    cases l' with
    | nil => cases e
    | cons j l' =>
      rw [List.map_cons, List.map_cons, List.cons.injEq] at e
      obtain ⟨t, ht⟩ := hl i (by simp)
      have a := (hst.agree t i).2 ht
      have b := (hst.agree t j).2 (e.1 ▸ ht)
      rw [a] at b
      rw [Option.some.inj b, ih l' (fun i hi => hl i (List.mem_cons_of_mem _ hi)) e.2]

include hE hS in
/-- Either there is a constant that is not stored, or there is a plan whose rows are the answers, with the values of the keys. -/
theorem plan_full (h : Read P get dict graph db text q num columns ks) :
    (transform P get dict ⟨if q.distinct then .distinct else .none, columns.map num, q.pat.meaning q.prefixes num, q.limit, q.offset, ks.map (SKey.meaning num)⟩ = .ok none ∧
      ∀ xs, answers P q.prefixes graph q.pat xs = []) ∨
    ∃ qg plan, transform P get dict ⟨if q.distinct then .distinct else .none, columns.map num, q.pat.meaning q.prefixes num, q.limit, q.offset, ks.map (SKey.meaning num)⟩ = .ok (some qg) ∧
      qg.projection = columns.map num ∧ qg.order = (ks.map SKey.name).map num ∧
      PlanGen.translate E qg = some plan ∧ (∃ rows, PlanGen.ExecOn (S qg) qg (PlanGen.setOf (qg.projection ++ qg.order)) plan rows) ∧
      (∀ x ∈ qg.projection ++ qg.order, x ∈ PlanGen.cols qg (PlanGen.setOf (qg.projection ++ qg.order)) plan) ∧
      qg.nodes.length ≤ 64 ∧ (∀ x ∈ qg.projection ++ qg.order, ∃ n ∈ qg.nodes, x ∈ n.vars) ∧
      ∀ rows, PlanGen.ExecOn (S qg) qg (PlanGen.setOf (qg.projection ++ qg.order)) plan rows → (∀ r ∈ rows, r.1 ≠ 0) ∧
        (∀ xs, (∀ x ∈ xs, x ∈ columns ++ ks.map SKey.name) →
          ((expand rows).map fun t => (cellsOf qg plan (xs.map num) t).map dict).Perm ((answers P q.prefixes graph q.pat xs).map line)) ∧
        (∀ r ∈ rows, ∀ i ∈ cellsOf qg plan (qg.projection ++ qg.order) r.2, ∃ t, dict i = some t) ∧
        ∀ r ∈ rows, ∀ r' ∈ rows, cellsOf qg plan (qg.projection ++ qg.order) r.2 = cellsOf qg plan (qg.projection ++ qg.order) r'.2 → r.2 = r'.2 := by
  rw [transform_ok h.group _ _ _ _ _ h.keys]
  cases hn : encodeTriples get (q.pat.triples.map (meaningOf q.prefixes num)) with
  | none => exact .inl ⟨rfl, fun xs => answers_none h.stored h.loaded h.group hn⟩
  | some ns =>
    right
    have hlen := encodeTriples_length hn
    rw [List.length_map] at hlen
    have hsmall : ∀ i t, get t = some i → i < 2 ^ 32 - 1 := fun i t hi => h.stored.small i t ((h.stored.agree t i).1 hi)
    have hdb : ∀ t ∈ db, t.1 < 2 ^ 64 ∧ t.2.1 < 2 ^ 64 ∧ t.2.2 < 2 ^ 64 := by
      intro t ht
      obtain ⟨u, _, h1, h2, h3⟩ := loaded_mem h.loaded t ht
      have a := hsmall _ _ h1.2
      have b := hsmall _ _ h2.2
      have c := hsmall _ _ h3.2
      omega
    have hvars : ∀ n ∈ (graphOf P get dict q.prefixes num q.pat ns columns (ks.map SKey.name)).nodes, n.vars.Nodup := by
      intro n hn'
      obtain ⟨t, ht, e⟩ := encodeTriples_mem hn n hn'
      obtain ⟨u, hu, rfl⟩ := List.mem_map.1 ht
      rw [node_vars e]
      exact nodup_map (h.group.once u hu) fun x hx y hy => h.inj x (h.group.vars.2 ⟨u, hu, hx⟩) y (h.group.vars.2 ⟨u, hu, hy⟩)
    have hpv : ∀ x ∈ columns ++ ks.map SKey.name, x ∈ q.pat.vars := by
      intro x hx
      rcases List.mem_append.1 hx with hx | hx
      · exact h.columns x hx
      · obtain ⟨k, hk, rfl⟩ := List.mem_map.1 hx
        exact h.keys k hk
    have hocc : ∀ x ∈ columns.map num ++ (ks.map SKey.name).map num, ∃ n ∈ ns, x ∈ n.vars := by
      intro x hx
      rw [← List.map_append] at hx
      obtain ⟨y, hy, rfl⟩ := List.mem_map.1 hx
      obtain ⟨t, ht, hyt⟩ := h.group.vars.1 (hpv y hy)
      obtain ⟨n, hn', e⟩ := encodeTriples_of hn _ (List.mem_map_of_mem ht)
      exact ⟨n, hn', by rw [node_vars e]; exact List.mem_map_of_mem hyt⟩
    have hfew : ns.length ≤ 64 := by rw [hlen]; exact h.group.few
    obtain ⟨plan, hp, hex, hcol, hrows⟩ := plan_rows E hE hdb (q := graphOf P get dict q.prefixes num q.pat ns columns (ks.map SKey.name))
      (by
        intro e
        have : ns = [] := e
        rw [this] at hlen
        exact h.group.nonempty (List.length_eq_zero_iff.1 hlen.symm))
      hfew
      hvars
      (graph_tied h hn)
      (by
        intro f hf
        obtain ⟨e, _, rfl⟩ := List.mem_map.1 hf
        exact filterOf_local P dict e)
      (by
        intro f hf
        obtain ⟨e, he, rfl⟩ := List.mem_map.1 hf
        obtain ⟨d, hd, rfl⟩ := List.mem_map.1 he
        exact part_safe h.stored h.integers h.loaded h.group h.inj hn hd)
      hocc
      (hS _ hvars)
    refine ⟨_, plan, rfl, rfl, rfl, hp, hex, hcol, hfew, hocc, fun rows hx => ?_⟩
    obtain ⟨h1, h2, h3⟩ := hrows rows hx
    refine ⟨h1, ?_, ?_, h3⟩
    · intro xs hxs
      have hperm := (h2 (xs.map num) (by
        intro x hx
        obtain ⟨y, hy, rfl⟩ := List.mem_map.1 hx
        show _ ∈ columns.map num ++ (ks.map SKey.name).map num
        rw [← List.map_append]
        exact List.mem_map_of_mem (hxs y hy))).map fun r => r.map fun o => Option.bind o dict
      have ha := answers_graph h.stored h.integers h.loaded h.group h.inj hn (columns := xs) fun x hx => hpv x (hxs x hx)
      rw [show PlanGen.Spec.answers db { graphOf P get dict q.prefixes num q.pat ns columns (ks.map SKey.name) with projection := xs.map num } =
        PlanGen.Spec.answers db (graphOf P get dict q.prefixes num q.pat ns xs) from rfl, ← ha, List.map_map] at hperm
      refine Eq.mp (congrArg (fun l => List.Perm l _) (List.map_congr_left fun t _ => ?_)) hperm
      rw [Function.comp_apply, List.map_map]
      rfl
    · intro r hr i hi
      have hm := (h2 _ (fun _ h => h)).mem_iff.1 (List.mem_map.2 ⟨r.2, PlanGen.mem_expand.2 ⟨r, hr, h1 r hr, rfl⟩, rfl⟩)
      unfold PlanGen.Spec.answers at hm
      obtain ⟨c, hc, e⟩ := List.mem_map.1 hm
      have hi' := List.mem_map_of_mem (f := some) hi
      rw [← e] at hi'
      obtain ⟨x, _, hv⟩ := List.mem_map.1 hi'
      obtain ⟨t, _, ht⟩ := sto_choices h.stored h.loaded (List.mem_filter.1 hc).1 _ (PlanGen.mem_of_value hv)
      exact ⟨_, ht⟩

include hE hS in
/-- Without ORDER BY. -/
theorem plan_of (h : Read P get dict graph db text q num columns []) :
    (transform P get dict ⟨if q.distinct then .distinct else .none, columns.map num, q.pat.meaning q.prefixes num, q.limit, q.offset, []⟩ = .ok none ∧
      answers P q.prefixes graph q.pat columns = []) ∨
    ∃ qg plan, transform P get dict ⟨if q.distinct then .distinct else .none, columns.map num, q.pat.meaning q.prefixes num, q.limit, q.offset, []⟩ = .ok (some qg) ∧
      PlanGen.translate E qg = some plan ∧ (∃ rows, PlanGen.ExecOn (S qg) qg (PlanGen.setOf (qg.projection ++ qg.order)) plan rows) ∧
      ∀ rows, PlanGen.ExecOn (S qg) qg (PlanGen.setOf (qg.projection ++ qg.order)) plan rows → (∀ r ∈ rows, r.1 ≠ 0) ∧
        ((expand rows).map (texts dict qg plan)).Perm ((answers P q.prefixes graph q.pat columns).map line) ∧
        ∀ r ∈ rows, ∀ r' ∈ rows, texts dict qg plan r.2 = texts dict qg plan r'.2 → r.2 = r'.2 := by
  rcases plan_full E hE hS h with ⟨ht, ha⟩ | ⟨qg, plan, ht, hpr, hor, hp, hex, hcol, _, _, hrows⟩
  · exact .inl ⟨ht, ha _⟩
  · refine .inr ⟨qg, plan, ht, hp, hex, fun rows hx => ?_⟩
    obtain ⟨h1, h2, h3, h4⟩ := hrows rows hx
    have hor : qg.order = [] := hor
    have hsh : ∀ t, shown qg plan t = cellsOf qg plan qg.projection t := by
      intro t
      refine List.map_congr_left fun x hx => ?_
      rw [if_pos (by simpa using hcol x (List.mem_append_left _ hx))]
    have hcs : ∀ t, cellsOf qg plan (qg.projection ++ qg.order) t = cellsOf qg plan qg.projection t := by
      intro t
      rw [show qg.projection ++ qg.order = qg.projection by rw [hor, List.append_nil]]
    refine ⟨h1, ?_, ?_⟩
    · have := h2 columns fun x hx => List.mem_append_left _ hx
      refine Eq.mp (congrArg (fun l => List.Perm l _) (List.map_congr_left fun t _ => ?_)) this
      show _ = (shown qg plan t).map dict
      rw [hsh, hpr]
    · intro r hr r' hr' e
      refine h4 r hr r' hr' ?_
      have e : (shown qg plan r.2).map dict = (shown qg plan r'.2).map dict := e
      rw [hsh, hsh] at e
      rw [hcs, hcs]
      exact dict_inj h.stored _ _ (fun i hi => h3 r hr i (by rw [hcs]; exact hi)) e

/-- The lines without DISTINCT are a part of the rows. -/
theorem all_lines {qg : PlanGen.Query} {plan : PlanGen.Plan} {rows : List Row} {limit : Option Nat} {offset : Nat} (hl : ∀ n, limit = some n → 0 < n)
    (hlen : limit = none → (expand rows).length < 2 ^ 32) :
    (Limit.print (Limit.limitOf limit) (rows.map fun r => (r.1, shown qg plan r.2)) offset 0).map (fun t => t.map dict) =
      Trident.Sparql.Spec.sliceOpt offset limit ((expand rows).map (texts dict qg plan)) := by
  have he := PlanGen.expand_map (shown qg plan) rows
  cases limit with
  | some n =>
    rw [Limit.C73_print n offset (hl n rfl), he]
    have := sliceOpt_map (fun t : Tup => t.map dict) offset (some n) ((expand rows).map (shown qg plan))
    rw [List.map_map] at this
    exact this
  | none =>
    rw [Limit.C73_print_all_partial offset _ (by rw [he, List.length_map]; have := hlen rfl; omega), he]
    have := sliceOpt_map (fun t : Tup => t.map dict) offset none ((expand rows).map (shown qg plan))
    rw [List.map_map] at this
    exact this

/-- The lines with DISTINCT are a part of the different rows. -/
theorem distinct_lines {qg : PlanGen.Query} {plan : PlanGen.Plan} {rows : List Row} {limit : Option Nat} (hl : ∀ n, limit = some n → 0 < n)
    (hlen : limit = none → (expand rows).length < 2 ^ 32) (hpos : ∀ r ∈ rows, r.1 ≠ 0)
    (hinj : ∀ r ∈ rows, ∀ r' ∈ rows, texts dict qg plan r.2 = texts dict qg plan r'.2 → r.2 = r'.2) (enum : Nat → List Nat) (he : ∀ n, (enum n).Perm (List.range n)) :
    ∃ l : List (List (Option Text)), l.Nodup ∧ (∀ r, r ∈ l ↔ r ∈ (expand rows).map (texts dict qg plan)) ∧
      (Limit.output .reduce (Limit.limitOf limit) 0 ((Distinct.groupify enum rows).map fun r => (r.1, shown qg plan r.2))).map (fun t => t.map dict) =
        Trident.Sparql.Spec.sliceOpt 0 limit l := by
  obtain ⟨h1, h2, h3⟩ := Distinct.C72_distinct enum he rows
  have hback : ∀ t, t ∈ (Distinct.groupify enum rows).map (·.2) → ∃ r ∈ rows, r.2 = t := fun t ht => List.mem_map.1 ((h2 t).1 ht)
  have hcount : ∀ r ∈ (Distinct.groupify enum rows).map fun r => (r.1, shown qg plan r.2), 0 < r.1 := by
    intro r hr
    obtain ⟨g, hg, rfl⟩ := List.mem_map.1 hr
    simp only
    rw [h3 g hg]
    obtain ⟨r, hr, e⟩ := hback g.2 (List.mem_map_of_mem hg)
    exact Trident.Sparql.bag_pos.2 ⟨r, hr, e, Nat.pos_of_ne_zero (hpos r hr)⟩
  have hlim : 0 < Limit.limitOf limit := by
    cases limit with
    | none => decide
    | some n => exact hl n rfl
  refine ⟨((Distinct.groupify enum rows).map (·.2)).map (texts dict qg plan), ?_, ?_, ?_⟩
  · refine nodup_map h1 fun t ht u hu e => ?_
    obtain ⟨r, hr, rfl⟩ := hback t ht
    obtain ⟨r', hr', rfl⟩ := hback u hu
    exact hinj r hr r' hr' e
  · intro x
    simp only [List.mem_map (f := texts dict qg plan)]
    refine exists_congr fun t => and_congr_left fun _ => ?_
    rw [h2, PlanGen.mem_expand, List.mem_map]
    exact exists_congr fun r => and_congr_right fun hr => ⟨fun e => ⟨hpos r hr, e⟩, fun e => e.2⟩
  · rw [Limit.C73_distinct_partial _ hlim _ hcount]
    have e : ((Distinct.groupify enum rows).map fun r => (r.1, shown qg plan r.2)).map (·.2) = ((Distinct.groupify enum rows).map (·.2)).map (shown qg plan) := by
      rw [List.map_map, List.map_map]
      rfl
    rw [e]
    have key : (Trident.Sparql.Spec.sliceOpt 0 limit (((Distinct.groupify enum rows).map (·.2)).map (shown qg plan))).map (fun t : Tup => t.map dict) =
        Trident.Sparql.Spec.sliceOpt 0 limit (((Distinct.groupify enum rows).map (·.2)).map (texts dict qg plan)) := by
      rw [sliceOpt_map, List.map_map (g := fun t : Tup => t.map dict)]
      rfl
    refine Eq.trans ?_ key
    cases limit with
    | some n => rfl
    | none =>
      congr 1
      unfold Trident.Sparql.Spec.slice Trident.Sparql.Spec.sliceOpt
      rw [List.take_of_length_le]
      have hsub := h1.length_le_of_subset (l₂ := expand rows) (by
        intro t ht
        obtain ⟨r, hr, e⟩ := hback t ht
        exact PlanGen.mem_expand.2 ⟨r, hr, hpos r hr, e⟩)
      have := hlen rfl
      simp only [List.length_drop, List.length_map, Limit.limitOf] at *
      omega

end Plans

/-! ## Theorems -/

/-- With any scans that return the rows of the triples. -/
theorem select_on (E : PlanGen.Est) (hE : E.Fair) (hst : Stored P get dict) (hr : ReadsIntegers P) (hload : Loaded get graph db) (W : QueryWords) (q : SQuery)
    {slice : List Tok} {text : Text} (hprefixes : W.prefixes.length = q.prefixes.length ∧ (∀ p ∈ q.prefixes, 92 ∉ p.2) ∧ (q.prefixes.map (·.1)).Nodup)
    (hgroup : GroupOk P get graph q.prefixes q.pat) (htied : q.Tied) (hslice : SliceToks W slice q.limit q.offset) (hnames : ∀ l, q.columns = .names l → l ≠ [] ∧ ∀ x ∈ l, x ∈ q.pat.vars)
    (hdistinct : q.distinct = false) (htext : Written text (q.toks W slice))
    {S : Scans} (hS : ∀ q : PlanGen.Query, (∀ n ∈ q.nodes, n.vars.Nodup) → PlanGen.ScansOf (S q) db q) :
    ∃ columns, q.Shows columns ∧ ((q.limit = none → (answers P q.prefixes graph q.pat columns).length < 2 ^ 32) → (∃ out, RunOn E P get dict S text out) ∧
      ∀ out, RunOn E P get dict S text out → ∃ l, l.Perm ((answers P q.prefixes graph q.pat columns).map line) ∧ out = Trident.Sparql.Spec.sliceOpt q.offset q.limit l) := by
  obtain ⟨num, columns, hread, hshow, hinj⟩ := readQuery_ok W q hprefixes.1 hprefixes.2.1 hprefixes.2.2 hgroup.ok hslice (fun e => (hnames [] e).1 rfl) htext
  have hcols : ∀ x ∈ columns, x ∈ q.pat.vars := by
    intro x hx
    unfold SQuery.Shows at hshow
    cases hc : q.columns with
    | star => rw [hc] at hshow; exact (hshow.2 x).1 hx
    | names l => rw [hc] at hshow; exact (hnames l hc).2 x (hshow ▸ hx)
  have hhas : ∀ x ∈ q.pat.vars, q.columns.Has x → x ∈ columns := by
    intro x hx hc
    unfold SQuery.Shows at hshow
    cases he : q.columns with
    | star => rw [he] at hshow; exact (hshow.2 x).2 hx
    | names l => rw [he] at hshow hc; exact hshow ▸ hc
  have hlimit : ∀ n, q.limit = some n → 0 < n := by
    intro n hn
    rw [hn] at hslice
    generalize q.offset = o at hslice
    cases hslice <;> assumption
  refine ⟨columns, hshow, fun hlen => ?_⟩
  rcases plan_of E hE hS ⟨hread, hinj, hst, hr, hload, hgroup, hhas, hcols, htied, hlimit, nofun⟩ with ⟨ht, ha⟩ | ⟨qg, plan, ht, hp, ⟨rows, hx⟩, hrows⟩
  · refine ⟨⟨_, .empty hread ht⟩, fun out hrun => ?_⟩
    rw [ha]
    cases hrun with
    | empty _ _ => exact ⟨[], .refl _, by cases q.limit <;> simp [Trident.Sparql.Spec.sliceOpt, Trident.Sparql.Spec.slice]⟩
    | lines h1 _ h2 _ _ =>
      rw [hread] at h1
      cases h1
      rw [ht] at h2
      cases h2
  · rw [hdistinct] at hread ht
    have hrun : ∀ rows, PlanGen.ExecOn (S qg) qg (PlanGen.setOf (qg.projection ++ qg.order)) plan rows →
        ((Limit.print (Limit.limitOf q.limit) (rows.map fun r => (r.1, shown qg plan r.2)) q.offset 0).map fun t => t.map dict) =
          Trident.Sparql.Spec.sliceOpt q.offset q.limit ((expand rows).map (texts dict qg plan)) := by
      intro rows hx
      refine all_lines hlimit fun hn => ?_
      have := (hrows rows hx).2.1.length_eq
      rw [List.length_map, List.length_map] at this
      rw [this]
      exact hlen hn
    refine ⟨⟨_, .lines hread rfl ht hp (.all hx)⟩, fun out h => ?_⟩
    cases h with
    | empty h1 h2 =>
      rw [hread] at h1
      cases h1
      rw [ht] at h2
      cases h2
    | lines h1 _ h2 h3 h4 =>
      rw [hread] at h1
      cases h1
      rw [ht] at h2
      cases h2
      rw [hp] at h3
      cases h3
      cases h4 with
      | all hx => exact ⟨_, (hrows _ hx).2.1, hrun _ hx⟩

/-- With any scans that return the rows of the triples. -/
theorem distinct_on (E : PlanGen.Est) (hE : E.Fair) (hst : Stored P get dict) (hr : ReadsIntegers P) (hload : Loaded get graph db) (W : QueryWords) (q : SQuery)
    {slice : List Tok} {text : Text} (hprefixes : W.prefixes.length = q.prefixes.length ∧ (∀ p ∈ q.prefixes, 92 ∉ p.2) ∧ (q.prefixes.map (·.1)).Nodup)
    (hgroup : GroupOk P get graph q.prefixes q.pat) (htied : q.Tied) (hslice : SliceToks W slice q.limit 0) (hoffset : q.offset = 0)
    (hnames : ∀ l, q.columns = .names l → l ≠ [] ∧ ∀ x ∈ l, x ∈ q.pat.vars) (hdistinct : q.distinct = true) (htext : Written text (q.toks W slice))
    {S : Scans} (hS : ∀ q : PlanGen.Query, (∀ n ∈ q.nodes, n.vars.Nodup) → PlanGen.ScansOf (S q) db q) :
    ∃ columns, q.Shows columns ∧ ((q.limit = none → (answers P q.prefixes graph q.pat columns).length < 2 ^ 32) → (∃ out, RunOn E P get dict S text out) ∧
      ∀ out, RunOn E P get dict S text out → ∃ l, l.Nodup ∧ (∀ r, r ∈ l ↔ r ∈ (answers P q.prefixes graph q.pat columns).map line) ∧
        out = Trident.Sparql.Spec.sliceOpt 0 q.limit l) := by
  rw [← hoffset] at hslice
  obtain ⟨num, columns, hread, hshow, hinj⟩ := readQuery_ok W q hprefixes.1 hprefixes.2.1 hprefixes.2.2 hgroup.ok hslice (fun e => (hnames [] e).1 rfl) htext
  have hcols : ∀ x ∈ columns, x ∈ q.pat.vars := by
    intro x hx
    unfold SQuery.Shows at hshow
    cases hc : q.columns with
    | star => rw [hc] at hshow; exact (hshow.2 x).1 hx
    | names l => rw [hc] at hshow; exact (hnames l hc).2 x (hshow ▸ hx)
  have hhas : ∀ x ∈ q.pat.vars, q.columns.Has x → x ∈ columns := by
    intro x hx hc
    unfold SQuery.Shows at hshow
    cases he : q.columns with
    | star => rw [he] at hshow; exact (hshow.2 x).2 hx
    | names l => rw [he] at hshow hc; exact hshow ▸ hc
  have hlimit : ∀ n, q.limit = some n → 0 < n := by
    intro n hn
    rw [hn] at hslice
    generalize q.offset = o at hslice
    cases hslice <;> assumption
  refine ⟨columns, hshow, fun hlen => ?_⟩
  rcases plan_of E hE hS ⟨hread, hinj, hst, hr, hload, hgroup, hhas, hcols, htied, hlimit, nofun⟩ with ⟨ht, ha⟩ | ⟨qg, plan, ht, hp, ⟨rows, hx⟩, hrows⟩
  · refine ⟨⟨_, .empty hread ht⟩, fun out hrun => ?_⟩
    rw [ha]
    cases hrun with
    | empty _ _ => exact ⟨[], .nil, by simp, by cases q.limit <;> simp [Trident.Sparql.Spec.sliceOpt, Trident.Sparql.Spec.slice]⟩
    | lines h1 _ h2 _ _ =>
      rw [hread] at h1
      cases h1
      rw [ht] at h2
      cases h2
  · rw [hdistinct] at hread ht
    refine ⟨⟨_, .lines hread rfl ht hp (.distinct List.range (fun _ => .refl _) hx)⟩, fun out h => ?_⟩
    cases h with
    | empty h1 h2 =>
      rw [hread] at h1
      cases h1
      rw [ht] at h2
      cases h2
    | lines h1 _ h2 h3 h4 =>
      rw [hread] at h1
      cases h1
      rw [ht] at h2
      cases h2
      rw [hp] at h3
      cases h3
      cases h4 with
      | distinct enum he hx =>
        obtain ⟨a1, a2, a3⟩ := hrows _ hx
        obtain ⟨l, b1, b2, b3⟩ := distinct_lines (dict := dict) hlimit (fun hn => by
          have := a2.length_eq
          rw [List.length_map, List.length_map] at this
          rw [this]
          exact hlen hn) a1 a3 enum he
        refine ⟨l, b1, fun r => (b2 r).trans a2.mem_iff, ?_⟩
        rw [← b3]
        simp only [hoffset]

/-- **C86 (SELECT, part).** For each text of a SELECT query, the program has an output, and each output is the part that LIMIT and OFFSET say of a list of the answers of the
query: each answer as often as the query asks, in some order.  This is so for all estimates of the optimizer (`E`) for which plans can be compared.
Missing: groups that `GroupOk` does not treat, triple patterns with a constant and two variables that are nowhere else (`Tied`, see `C85_constant_violated`), ORDER BY (see `C89_query_partial`), expressions in the projection, GROUP BY, columns that are not in the group, 2^32 answers or more without LIMIT. -/
theorem C86_select_partial (E : PlanGen.Est) (hE : E.Fair) (hst : Stored P get dict) (hr : ReadsIntegers P) (hload : Loaded get graph db) (W : QueryWords) (q : SQuery)
    {slice : List Tok} {text : Text} (hprefixes : W.prefixes.length = q.prefixes.length ∧ (∀ p ∈ q.prefixes, 92 ∉ p.2) ∧ (q.prefixes.map (·.1)).Nodup)
    (hgroup : GroupOk P get graph q.prefixes q.pat) (htied : q.Tied) (hslice : SliceToks W slice q.limit q.offset) (hnames : ∀ l, q.columns = .names l → l ≠ [] ∧ ∀ x ∈ l, x ∈ q.pat.vars)
    (hdistinct : q.distinct = false) (htext : Written text (q.toks W slice)) :
    ∃ columns, q.Shows columns ∧ ((q.limit = none → (answers P q.prefixes graph q.pat columns).length < 2 ^ 32) → (∃ out, Run E P get dict db text out) ∧
      ∀ out, Run E P get dict db text out → ∃ l, l.Perm ((answers P q.prefixes graph q.pat columns).map line) ∧ out = Trident.Sparql.Spec.sliceOpt q.offset q.limit l) :=
  select_on E hE hst hr hload W q hprefixes hgroup htied hslice hnames hdistinct htext fun _ _ => PlanGen.scansOf_rows

/-- **C86 (SELECT DISTINCT, part).** With DISTINCT and without OFFSET, each output is the part that LIMIT says of a list of the answers, each of them once.
Missing: as for `C86_select_partial`, and OFFSET (`C73_distinct_offset_violated`). -/
theorem C86_distinct_partial (E : PlanGen.Est) (hE : E.Fair) (hst : Stored P get dict) (hr : ReadsIntegers P) (hload : Loaded get graph db) (W : QueryWords) (q : SQuery)
    {slice : List Tok} {text : Text} (hprefixes : W.prefixes.length = q.prefixes.length ∧ (∀ p ∈ q.prefixes, 92 ∉ p.2) ∧ (q.prefixes.map (·.1)).Nodup)
    (hgroup : GroupOk P get graph q.prefixes q.pat) (htied : q.Tied) (hslice : SliceToks W slice q.limit 0) (hoffset : q.offset = 0)
    (hnames : ∀ l, q.columns = .names l → l ≠ [] ∧ ∀ x ∈ l, x ∈ q.pat.vars) (hdistinct : q.distinct = true) (htext : Written text (q.toks W slice)) :
    ∃ columns, q.Shows columns ∧ ((q.limit = none → (answers P q.prefixes graph q.pat columns).length < 2 ^ 32) → (∃ out, Run E P get dict db text out) ∧
      ∀ out, Run E P get dict db text out → ∃ l, l.Nodup ∧ (∀ r, r ∈ l ↔ r ∈ (answers P q.prefixes graph q.pat columns).map line) ∧
        out = Trident.Sparql.Spec.sliceOpt 0 q.limit l) :=
  distinct_on E hE hst hr hload W q hprefixes hgroup htied hslice hoffset hnames hdistinct htext fun _ _ => PlanGen.scansOf_rows

/-- **C86 (text after the query).** A text that goes on after the query is rejected, unless it goes on with one of the words GROUP, HAVING, ORDER, LIMIT and OFFSET. -/
theorem C86_tail (W : QueryWords) (q : SQuery) {slice tail : List Tok} {text : Text} {t : Tok}
    (hprefixes : W.prefixes.length = q.prefixes.length ∧ (∀ p ∈ q.prefixes, 92 ∉ p.2) ∧ (q.prefixes.map (·.1)).Nodup)
    (hgroup : q.pat.Ok q.prefixes false) (hslice : SliceToks W slice q.limit q.offset) (hnames : q.columns ≠ .names [])
    (htail : t.kind = .identifier → t.raw.map lower ∉ [str "group", str "having", str "order", str "limit", str "offset"]) (htext : Written text (q.toks W (slice ++ t :: tail))) :
    readQuery text = .error .syntax := by
  obtain ⟨_, _, h, _⟩ := readQuery_tail W q (tail := t :: tail) hprefixes.1 hprefixes.2.1 hprefixes.2.2 hgroup hslice hnames (by
    intro u hu
    simp only [List.head?_cons, Option.mem_def, Option.some.injEq] at hu
    subst hu
    exact htail) htext
  rw [h, pop_cons (by rfl), if_pos]
  refine written_kind htext t ?_
  unfold SQuery.toks
  simp

/-! ## Examples -/

section Examples

/-- Ids 0 to 7. -/
def cells2 : List Term :=
  [.iri (str "http://p"), .iri (str "http://q"), .iri (str "http://a"), .iri (str "http://b"), .typed (str "5") xsdInteger, .typed (str "10") xsdInteger,
    .typed (str "-7") xsdInteger, .plain (str "x")]

theorem cells2_ok : ∀ t ∈ cells2, t.Ok := by
  intro t ht
  simp only [cells2, List.mem_cons, List.not_mem_nil, or_false] at ht
  rcases ht with rfl | rfl | rfl | rfl | rfl | rfl | rfl | rfl <;> simp only [Term.Ok] <;> decide +kernel

theorem cells2_stored : Stored intLib (ofTerms cells2) (dictOf cells2) := ofTerms_stored (by decide) (by decide +kernel) cells2_ok (by decide +kernel)

/-- The triples, as ids. -/
def db2 : List PlanGen.Triple := [(2, 0, 4), (2, 0, 5), (3, 0, 6), (2, 1, 7), (3, 1, 7)]

def cell2 (i : Nat) : Term := cells2.getD i (.plain [])

/-- The triples, as terms. -/
def graph2 : List (Term × Term × Term) := db2.map fun t => (cell2 t.1, cell2 t.2.1, cell2 t.2.2)

theorem loaded2 : Loaded (ofTerms cells2) graph2 db2 := by
  have key : ∀ i, i < 8 → (cell2 i).Ok ∧ ofTerms cells2 (cell2 i).text = some i := by
    intro i hi
    refine ⟨cells2_ok _ ?_, ?_⟩
    · unfold cell2
      rw [List.getD_eq_getElem?_getD, List.getElem?_eq_getElem (show i < cells2.length from hi)]
      exact List.getElem_mem _
    · revert i
      decide +kernel
  have one : ∀ t : PlanGen.Triple, t.1 < 8 → t.2.1 < 8 → t.2.2 < 8 → StoredAs (ofTerms cells2) (cell2 t.1, cell2 t.2.1, cell2 t.2.2) t :=
    fun t h1 h2 h3 => ⟨key _ h1, key _ h2, key _ h3⟩
  have all : ∀ l : List PlanGen.Triple, (∀ t ∈ l, t.1 < 8 ∧ t.2.1 < 8 ∧ t.2.2 < 8) → Loaded (ofTerms cells2) (l.map fun t => (cell2 t.1, cell2 t.2.1, cell2 t.2.2)) l := by
    intro l
    induction l with
    | nil => exact fun _ => .nil
    | cons t l ih =>
      intro h
      have := h t (by simp)
      exact .cons (one t this.1 this.2.1 this.2.2) (ih fun t ht => h t (List.mem_cons_of_mem _ ht))
  exact all db2 (by decide)

def less10 : SCond := .bin .lt (.elem (.var (str "o"))) (.int (str "10"))

/-- `?s e:p ?o ; e:q ?v FILTER(?o < 10)` -/
def pat4 : Pat :=
  .block (.var (str "s")) (.name (str "e") (str "p")) (.var (str "o")) [(some (.name (str "e") (str "q")), .var (str "v"))] false
    (.filter less10 (lparen :: (([⟨.variable, str "o"⟩] ++ ⟨.less, []⟩ :: [int1 "10"]) ++ [rparen])) false .nil)

def preE : List (Text × Text) := [(str "e", str "http://")]

theorem pat4_ok : pat4.Ok preE false := by
  have h1 : Derives preE .primary (.elem (.var (str "o"))) [⟨.variable, str "o"⟩] := .elem (e := .var (str "o")) trivial nofun nofun
  have h2 : Derives preE .primary (.int (str "10")) [int1 "10"] := .int
  have up : ∀ {c : SCond} {ts : List Tok}, Derives preE .primary c ts → Derives preE .add c ts := fun h => .addUp (.mulUp (.unaryUp h))
  simp only [pat4, Pat.Ok]
  refine ⟨by decide +kernel, by decide +kernel, by decide +kernel, ?_, by decide +kernel, ?_, trivial⟩
  · intro x hx
    simp only [List.mem_singleton] at hx
    subst hx
    exact ⟨fun p hp => by cases hp; decide +kernel, by decide +kernel⟩
  · exact .brackets (.orUp (.andUp (.rel (op := .lt) (up h1) (up h2) (by decide))))

theorem pat4_triples : pat4.triples = [(.var (str "s"), .name (str "e") (str "p"), .var (str "o")), (.var (str "s"), .name (str "e") (str "q"), .var (str "v"))] := rfl

theorem pat4_group : GroupOk intLib (ofTerms cells2) graph2 preE pat4 where
  ok := pat4_ok
  flat := by simp only [pat4, Pat.Flat]
  nonempty := nofun
  few := by decide
  once := by decide +kernel
  constants := by
    rw [pat4_triples]
    intro t ht e he u hu
    have key : ∀ t ∈ [((.var (str "s"), .name (str "e") (str "p"), .var (str "o")) : STriple), (.var (str "s"), .name (str "e") (str "q"), .var (str "v"))],
        ∀ e ∈ [t.1, t.2.1, t.2.2], e.constant preE = none ∨ e.constant preE = some (.iri (str "http://p")) ∨ e.constant preE = some (.iri (str "http://q")) := by decide +kernel
    rcases key t ht e he with h | h | h <;> rw [h] at hu <;> cases hu
    · exact ⟨by rintro c ⟨⟩; decide, by decide +kernel⟩
    · exact ⟨by rintro c ⟨⟩; decide, by decide +kernel⟩
  treated := by
    intro c hc
    rw [show pat4.conds = [less10] from rfl, List.mem_singleton] at hc
    subst hc
    exact ⟨trivial, trivial⟩
  bound := by
    intro c hc x hx
    rw [show pat4.conds = [less10] from rfl, List.mem_singleton] at hc
    subst hc
    rw [show less10.vars = [str "o"] from rfl, List.mem_singleton] at hx
    subst hx
    exact ⟨_, List.mem_cons_self .., by decide +kernel⟩
  condConstants := by
    intro c hc u hu
    rw [show pat4.conds = [less10] from rfl, List.mem_singleton] at hc
    subst hc
    rw [show less10.constants preE = [.typed (str "10") xsdInteger] from rfl, List.mem_singleton] at hu
    subst hu
    exact ⟨by rintro c ⟨⟩; decide, by decide +kernel⟩
  needed := by decide +kernel
  values := by
    intro c hc d hd σ hσ
    rw [show pat4.conds = [less10] from rfl, List.mem_singleton] at hc
    subst hc
    rw [show less10.conjuncts = [less10] from rfl, List.mem_singleton] at hd
    subst hd
    obtain ⟨t, h1, p, hp, d, hd, τ, h2, h3⟩ := hσ (str "o") (by decide +kernel)
    -- the values of ?o
    have key : ∀ p ∈ pat4.triples, ∀ d ∈ graph2, ((matchTriple preE p d fun _ => none).all fun τ => (τ (str "o")).all fun t => t == cell2 4 || t == cell2 5 || t == cell2 6) = true := by
      decide +kernel
    have h4 := key p hp d hd
    rw [h2, Option.all_some, h3, Option.all_some] at h4
    have h5 : t = cell2 4 ∨ t = cell2 5 ∨ t = cell2 6 := by simpa [or_assoc] using h4
    have h6 : ∀ t, t = cell2 4 ∨ t = cell2 5 ∨ t = cell2 6 → (less10.truth intLib preE fun x => if x = str "o" then some t else none).isSome = true := by
      rintro t (rfl | rfl | rfl) <;> decide +kernel
    have h7 : less10.truth intLib preE σ = less10.truth intLib preE fun x => if x = str "o" then some t else none := by
      simp only [less10, SCond.truth, SCond.term, h1, if_true]
    rw [h7]
    exact h6 t h5

/-- Words in capital letters. -/
def capsQuery : QueryWords where
  prefixes := [str "PREFIX"]
  select := str "SELECT"
  distinct := str "DISTINCT"
  where_ := some (str "WHERE")
  limit := str "LIMIT"
  offset := str "OFFSET"
  group := caps
  hprefixes := by decide
  hselect := by decide
  hdistinct := by decide
  hwhere := by decide
  hlimit := by decide
  hoffset := by decide

/-- `PREFIX e: <http://> SELECT ?s ?v WHERE { ?s e:p ?o ; e:q ?v FILTER(?o < 10) } OFFSET 1 LIMIT 5` -/
def query4 : SQuery := ⟨preE, false, .names [str "s", str "v"], pat4, some 5, 1⟩

theorem slice4 : SliceToks capsQuery [ident (str "OFFSET"), int1 "1", ident (str "LIMIT"), int1 "5"] (some 5) 1 :=
  .offsetLimit (l := str "5") (o := str "1") (by decide) (by decide) (by decide) (by decide) (by decide)

theorem names4 : ∀ l, query4.columns = .names l → l ≠ [] ∧ ∀ x ∈ l, x ∈ query4.pat.vars := by
  intro l h
  cases h
  exact ⟨nofun, by decide +kernel⟩

theorem tied4 : query4.Tied := by
  intro i t hi _ x hx y hy _
  have e : query4.pat.triples = pat4.triples := rfl
  rw [e, pat4_triples] at hi
  match i with
  | 0 =>
    cases hi
    left
    simp only [tripleVars, SElem.vars, List.nil_append, List.singleton_append, List.mem_cons, List.not_mem_nil, or_false] at hx
    rcases hx with rfl | rfl
    · exact .inl (by simp [query4, Columns.Has])
    · exact .inr (.inl ⟨less10, List.mem_singleton.2 rfl, by decide +kernel⟩)
  | 1 =>
    cases hi
    left
    simp only [tripleVars, SElem.vars, List.nil_append, List.singleton_append, List.mem_cons, List.not_mem_nil, or_false] at hx
    rcases hx with rfl | rfl
    · exact .inl (by simp [query4, Columns.Has])
    · exact .inl (by simp [query4, Columns.Has])
  | n + 2 => simp at hi

theorem fairEst : PlanGen.exampleEst.Fair := ⟨(fun (c : Nat) => decide_eq_true (Nat.le_refl c)), fun _ _ _ => rfl⟩

example := C86_select_partial PlanGen.exampleEst fairEst cells2_stored intLib_reads loaded2 capsQuery query4 ⟨rfl, by decide +kernel, by decide⟩ pat4_group tied4 slice4 names4 rfl
  (written_print (query4.toks capsQuery _) (by decide +kernel))

/-- The example with a brace after it. -/
example := C86_tail (tail := []) (t := rcurly) capsQuery query4 ⟨rfl, by decide +kernel, by decide⟩ pat4_ok slice4 nofun nofun
  (written_print (query4.toks capsQuery _) (by decide +kernel))

/-- The answers of the example. -/
example : (answers intLib preE graph2 pat4 [str "s", str "v"]).map line =
    [[some (str "<http://a>"), some (str "\"x\"")], [some (str "<http://b>"), some (str "\"x\"")]] := by decide +kernel

/-- `PREFIX e: <http://> SELECT DISTINCT * WHERE { ?s e:p ?o ; e:q ?v FILTER(?o < 10) }` -/
def query5 : SQuery := ⟨preE, true, .star, pat4, none, 0⟩

example := C86_distinct_partial PlanGen.exampleEst fairEst cells2_stored intLib_reads loaded2 capsQuery query5 ⟨rfl, by decide +kernel, by decide⟩ pat4_group (fun _ _ _ _ _ _ _ _ _ => .inl (.inl trivial)) .none rfl
  (fun l h => by cases h) rfl (written_print (query5.toks capsQuery _) (by decide +kernel))

example : query5.Shows [str "o", str "s", str "v"] := by
  refine ⟨?_, ?_⟩
  · simp only [List.pairwise_cons, List.mem_cons, List.not_mem_nil, or_false, forall_eq_or_imp, forall_eq]
    exact ⟨⟨.inl (by decide), .inl (by decide)⟩, .inl (by decide), nofun, .nil⟩
  · intro x
    have e : query5.pat.vars = [str "s", str "o", str "v", str "o"] := by decide +kernel
    rw [e]
    simp only [List.mem_cons, List.not_mem_nil, or_false]
    constructor
    · rintro (h | h | h) <;> simp [h]
    · rintro (h | h | h | h) <;> simp [h]

end Examples

/-! ## Violations -/

/-- What is read of a text. -/
def sliceOf (text : Text) : Except Err (Option Nat × Nat) := (readQuery text).map fun p => (p.limit, p.offset)

/-- `SELECT` in small letters is read, and so is the rest of this text; it is the text of the following theorems without what they change. -/
example : sliceOf (str "select ?s where { ?s ?p ?o } limit 3 offset 2") = .ok (some 3, 2) := by decide +kernel

/-- **`LIMIT 0` is rejected.** It asks for no answers. -/
theorem C86_limit_zero_violated : sliceOf (str "select ?s where { ?s ?p ?o } limit 0") = .error .syntax := by decide +kernel

/-- **`Where` is rejected,** although words are written in small or in capital letters. -/
theorem C86_where_violated : sliceOf (str "select ?s Where { ?s ?p ?o }") = .error .syntax ∧ sliceOf (str "Select ?s where { ?s ?p ?o }") = .ok (none, 0) := by decide +kernel

/-- **A second OFFSET is accepted** and replaces the first one; a second LIMIT is rejected. -/
theorem C86_offset_twice_violated : sliceOf (str "select ?s { ?s ?p ?o } offset 1 offset 2") = .ok (none, 2) ∧
    sliceOf (str "select ?s { ?s ?p ?o } limit 1 limit 2") = .error .syntax := by decide +kernel

/-- A query with a triple pattern that only asks whether something has the property `http://q`. -/
def looseText : Text := str "select ?s { ?s <http://p> ?o . ?x <http://q> ?y }"

/-- The query graph of `looseText`. -/
def looseGraph : PlanGen.Query := ⟨[(.var 0, .const 0, .var 1), (.var 2, .const 1, .var 3)], [], [0], []⟩

deriving instance DecidableEq for Analysis.PElem

/-- The nodes and the projection of a graph without conditions. -/
def plain : Except Err (Option PlanGen.Query) → Option (List PlanGen.Node × List Nat)
  | .ok (some ⟨ns, [], p, []⟩) => some (ns, p)
  | _ => none

theorem looseText_read {p : Parsed} (h : readQuery looseText = .ok p) : transform intLib (ofTerms cells2) (dictOf cells2) p = .ok (some looseGraph) := by
  have key : plain ((readQuery looseText).bind (transform intLib (ofTerms cells2) (dictOf cells2))) = some (looseGraph.nodes, looseGraph.projection) := by decide +kernel
  rw [h] at key
  simp only [Except.bind] at key
  unfold plain at key
  split at key
  · rename_i ns pr e
    simp only [Option.some.injEq, Prod.mk.injEq] at key
    rw [e, key.1, key.2]
    rfl
  · cases key

theorem loose_not : ¬ PlanGen.Spec.Tied looseGraph := by
  intro h
  rcases h 1 _ rfl ⟨1, by simp⟩ 2 3 (by omega) (by simp) (by simp) with h | h
  all_goals
    have := PlanGen.elsewhere_iff.2 h
    revert this
    decide

/-- **A query is not answered** if it has a triple pattern with a constant and two variables that are nowhere else: for all estimates, there is no output (the program ends with an
exception), although the query has answers. -/
theorem C86_constant_violated (E : PlanGen.Est) (hE : E.Fair) : (∃ p, readQuery looseText = .ok p) ∧ (∀ out, ¬ Run E intLib (ofTerms cells2) (dictOf cells2) db2 looseText out) ∧
    PlanGen.Spec.answers db2 looseGraph ≠ [] := by
  have hans : PlanGen.Spec.answers db2 looseGraph ≠ [] := by decide +kernel
  have hread : ∃ p, readQuery looseText = .ok p := by
    have : (match readQuery looseText with | .ok _ => true | .error _ => false) = true := by decide +kernel
    split at this
    · exact ⟨_, by assumption⟩
    · cases this
  refine ⟨hread, fun out h => ?_, hans⟩
  obtain ⟨plan, hp, hno⟩ := PlanGen.C85_constant_violated E hE db2 looseGraph (by decide) (by decide) loose_not hans
  cases h with
  | empty h1 h2 => rw [looseText_read h1] at h2; cases h2
  | @lines p _ _ _ h1 _ h2 h3 h4 =>
    rw [looseText_read h1] at h2
    cases h2
    rw [hp] at h3
    cases h3
    generalize p.modifier = m at h4
    cases h4 with
    | all hx => exact hno _ ⟨_, hx, rfl⟩
    | distinct _ _ hx => exact hno _ ⟨_, hx, rfl⟩

end Trident.Sparql.Parse
