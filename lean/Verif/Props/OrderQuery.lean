import Verif.Sparql.OrderRunProofs
import Verif.Props.StoreQuery
/-!
# C89: queries with ORDER BY

The theorems of `Verif.Props.QueryText` for queries that go on with ORDER BY, before LIMIT and OFFSET: `Written text (q.toks W (orderToks O ks ++ slice))`.  `RunSorted`: the lines that
the program writes.  `InOrder`: the order that is asked for.
-/
namespace Trident.Sparql.Parse

open Lex Spec
open Select (Expr Lib Dict)

variable {F : Type} {P : Lib F} {get : GetNumber} {V : OrderBy.Env} {graph : List (Term × Term × Term)} {db : List PlanGen.Triple}

theorem insert_sorted {x : Nat} : ∀ {l : List Nat}, l.Pairwise (· < ·) → (PlanGen.insert x l).Pairwise (· < ·)
  | [], _ => by simp [PlanGen.insert]
  | y :: l, h => by
    obtain ⟨h1, h2⟩ := List.pairwise_cons.1 h
    rw [PlanGen.insert]
    split
    · rename_i hxy
      refine List.pairwise_cons.2 ⟨fun z hz => ?_, h⟩
      rcases List.mem_cons.1 hz with rfl | hz
      · exact hxy
      · exact Nat.lt_trans hxy (h1 z hz)
    · split
      · exact h
      · refine List.pairwise_cons.2 ⟨fun z hz => ?_, insert_sorted h2⟩
        rcases PlanGen.mem_insert.1 hz with rfl | hz
        · omega
        · exact h1 z hz

theorem setOf_nodup (l : List Nat) : (PlanGen.setOf l).Nodup := by
  have : (PlanGen.setOf l).Pairwise (· < ·) := by
    induction l with
    | nil => exact .nil
    | cons x l ih => exact insert_sorted ih
  exact this.imp fun h => Nat.ne_of_lt h

/-- There are few registers. -/
theorem sorted_few {q : PlanGen.Query} (h : q.nodes.length ≤ 64) (hocc : ∀ x ∈ q.projection ++ q.order, ∃ n ∈ q.nodes, x ∈ n.vars) : (sorted q).length < 2 ^ 64 - 1 := by
  have h1 : (sorted q).length ≤ (q.nodes.flatMap PlanGen.Node.vars).length := by
    refine (setOf_nodup _).length_le_of_subset fun x hx => ?_
    obtain ⟨n, hn, hx⟩ := hocc x (PlanGen.mem_setOf.1 hx)
    exact List.mem_flatMap.2 ⟨n, hn, hx⟩
  have h2 : ∀ ns : List PlanGen.Node, (ns.flatMap PlanGen.Node.vars).length ≤ 3 * ns.length := by
    intro ns
    induction ns with
    | nil => simp
    | cons n ns ih =>
      rw [List.flatMap_cons, List.length_append, List.length_cons]
      have : n.vars.length ≤ 3 := List.length_filterMap_le _ _
      omega
  have := h2 q.nodes
  omega

/-- What is printed of some rows. -/
theorem print_lines {dict : Dict} (g : Tup → Tup) {rows : List Row} {limit : Option Nat} {offset : Nat} (hl : ∀ n, limit = some n → 0 < n)
    (hlen : limit = none → (expand rows).length < 2 ^ 32) :
    (Limit.print (Limit.limitOf limit) (rows.map fun r => (r.1, g r.2)) offset 0).map (fun t => t.map dict) =
      Trident.Sparql.Spec.sliceOpt offset limit ((expand rows).map fun t => (g t).map dict) := by
  have he := PlanGen.expand_map g rows
  cases limit with
  | some n =>
    rw [Limit.C73_print n offset (hl n rfl), he]
    have := sliceOpt_map (fun t : Tup => t.map dict) offset (some n) ((expand rows).map g)
    rw [List.map_map] at this
    exact this
  | none =>
    rw [Limit.C73_print_all_partial offset _ (by rw [he, List.length_map]; have := hlen rfl; omega), he]
    have := sliceOpt_map (fun t : Tup => t.map dict) offset none ((expand rows).map g)
    rw [List.map_map] at this
    exact this

/-- The number of answers does not depend on the columns. -/
theorem answers_length (pre : List (Text × Text)) (p : Pat) (xs ys : List Text) : (answers P pre graph p xs).length = (answers P pre graph p ys).length := by
  unfold answers
  rw [List.length_map, List.length_map]

/-- The query of a text with ORDER BY. -/
theorem order_read (hst : Stored P get V.text) (hr : ReadsIntegers P) (hload : Loaded get graph db) (W : QueryWords) (O : OrderWords) (ks : List SKey) (q : SQuery)
    {slice : List Tok} {text : Text} (hprefixes : W.prefixes.length = q.prefixes.length ∧ (∀ p ∈ q.prefixes, 92 ∉ p.2) ∧ (q.prefixes.map (·.1)).Nodup)
    (hgroup : GroupOk P get graph q.prefixes q.pat) (htied : q.Tied) (hslice : SliceToks W slice q.limit q.offset) (hnames : ∀ l, q.columns = .names l → l ≠ [] ∧ ∀ x ∈ l, x ∈ q.pat.vars)
    (hks : ∀ k ∈ ks, k.name ∈ q.pat.vars) (htext : Written text (q.toks W (orderToks O ks ++ slice))) :
    ∃ num columns, q.Shows columns ∧ Read P get V.text graph db text q num columns ks := by
  obtain ⟨num, columns, hread, hshow, hinj⟩ := readQuery_order W O ks q hprefixes.1 hprefixes.2.1 hprefixes.2.2 hgroup.ok hslice (fun e => (hnames [] e).1 rfl) hks htext
  refine ⟨num, columns, hshow, hread, hinj, hst, hr, hload, hgroup, ?_, ?_, htied, ?_, hks⟩
  · intro x hx hc
    unfold SQuery.Shows at hshow
    cases he : q.columns with
    | star => rw [he] at hshow; exact (hshow.2 x).2 hx
    | names l => rw [he] at hshow hc; exact hshow ▸ hc
  · intro x hx
    unfold SQuery.Shows at hshow
    cases hc : q.columns with
    | star => rw [hc] at hshow; exact (hshow.2 x).1 hx
    | names l => rw [hc] at hshow; exact (hnames l hc).2 x (hshow ▸ hx)
  · intro n hn
    rw [hn] at hslice
    generalize q.offset = o at hslice
    cases hslice <;> assumption

section Lines

variable {text : Text} {q : SQuery} {num : Text → Nat} {columns : List Text} {ks : List SKey} (hstale : V.stale = false) (h : Read P get V.text graph db text q num columns ks)
  {qg : PlanGen.Query} {plan : PlanGen.Plan} (hpr : qg.projection = columns.map num) (hor : qg.order = (ks.map SKey.name).map num)
  (hcol : ∀ x ∈ qg.projection ++ qg.order, x ∈ PlanGen.cols qg (PlanGen.setOf (qg.projection ++ qg.order)) plan) (hfew : (sorted qg).length < 2 ^ 64 - 1)

/-- The row of the operator for a row of the plan. -/
abbrev sortRow (qg : PlanGen.Query) (plan : PlanGen.Plan) (r : Row) : Row := (r.1, (sorted qg).map (PlanGen.look (PlanGen.cols qg (sorted qg) plan) r.2))

/-- The texts of the columns and of the keys. -/
abbrev full (V : OrderBy.Env) (qg : PlanGen.Query) (t : Tup) : List (Option Text) := textsOf V (sorted qg) (qg.projection ++ qg.order) t

theorem mem_sorted {x : Nat} : x ∈ sorted qg ↔ x ∈ qg.projection ++ qg.order := PlanGen.mem_setOf

theorem full_row (r : Row) : full V qg (sortRow qg plan r).2 = (cellsOf qg plan (qg.projection ++ qg.order) r.2).map V.text := by
  unfold full textsOf cellsOf
  congr 1
  refine List.map_congr_left fun x hx => ?_
  rw [PlanGen.look_map' (mem_sorted.2 hx)]
  rfl

include hpr in
/-- The columns are printed. -/
theorem full_take (t : Tup) : (printed qg (sorted qg) t).map V.text = (full V qg t).take columns.length := by
  unfold full textsOf printed
  rw [List.map_append, List.map_append, List.take_left' (by rw [List.length_map, List.length_map, hpr, List.length_map])]
  congr 1
  refine List.map_congr_left fun x hx => ?_
  rw [if_pos (by simpa using mem_sorted.2 (List.mem_append_left _ hx))]

include hstale h hpr hor hfew in
theorem sort_plan {rows : List Row} (hsto : ∀ r ∈ rows, ∀ i ∈ cellsOf qg plan (qg.projection ++ qg.order) r.2, ∃ t, V.text i = some t) :
    (∃ out, OrderBy.Returns V (OrderBy.keys (sorted qg) (ks.map fun k => (some (num k.name), k.descending))) (rows.map (sortRow qg plan)) out) ∧
    ∀ out, OrderBy.Returns V (OrderBy.keys (sorted qg) (ks.map fun k => (some (num k.name), k.descending))) (rows.map (sortRow qg plan)) out → out.Perm (rows.map (sortRow qg plan)) ∧
      out.Pairwise fun a b => ¬ OrderBy.Spec.Before (orderOf columns.length ks) (lineCells (full V qg b.2)) (lineCells (full V qg a.2)) := by
  have := sort_lines (V := V) hstale (fun v w t h1 h2 => by
      have a := (h.stored.agree t v).2 h1
      rw [(h.stored.agree t w).2 h2] at a
      exact (Option.some.inj a).symm) (num := num) (vals := sorted qg) (ks := ks) (xs := qg.projection) hfew
    (fun k hk => by
      rw [mem_sorted, hor]
      exact List.mem_append_right _ (List.mem_map_of_mem (List.mem_map_of_mem hk)))
    (input := rows.map (sortRow qg plan)) (by
      intro r hr
      obtain ⟨r, hr', rfl⟩ := List.mem_map.1 hr
      refine ⟨PlanGen.look (PlanGen.cols qg (sorted qg) plan) r.2, rfl, fun x hx => ?_⟩
      obtain ⟨t, ht⟩ := hsto r hr' _ (List.mem_map_of_mem (mem_sorted.1 hx))
      have := h.stored.small _ _ ht
      exact ⟨Nat.lt_trans this (by decide), t, ht⟩)
  have e : qg.projection ++ ks.map (fun k => num k.name) = qg.projection ++ qg.order := by
    rw [hor, List.map_map]
    rfl
  rw [e, show qg.projection.length = columns.length by rw [hpr, List.length_map]] at this
  exact this

end Lines

/-- With any scans that return the rows of the triples. -/
theorem order_on (E : PlanGen.Est) (hE : E.Fair) (hst : Stored P get V.text) (hstale : V.stale = false) (hr : ReadsIntegers P) (hload : Loaded get graph db) (W : QueryWords)
    (O : OrderWords) (ks : List SKey) (q : SQuery)
    {slice : List Tok} {text : Text} (hprefixes : W.prefixes.length = q.prefixes.length ∧ (∀ p ∈ q.prefixes, 92 ∉ p.2) ∧ (q.prefixes.map (·.1)).Nodup)
    (hgroup : GroupOk P get graph q.prefixes q.pat) (htied : q.Tied) (hslice : SliceToks W slice q.limit q.offset) (hnames : ∀ l, q.columns = .names l → l ≠ [] ∧ ∀ x ∈ l, x ∈ q.pat.vars)
    (hdistinct : q.distinct = false) (hne : ks ≠ []) (hks : ∀ k ∈ ks, k.name ∈ q.pat.vars) (htext : Written text (q.toks W (orderToks O ks ++ slice)))
    {S : Scans} (hS : ∀ q : PlanGen.Query, (∀ n ∈ q.nodes, n.vars.Nodup) → PlanGen.ScansOf (S q) db q) :
    ∃ columns, q.Shows columns ∧ ((q.limit = none → (answers P q.prefixes graph q.pat columns).length < 2 ^ 32) → (∃ out, RunSorted E P get V S text out) ∧
      ∀ out, RunSorted E P get V S text out → ∃ l, l.Perm ((answers P q.prefixes graph q.pat (columns ++ ks.map SKey.name)).map line) ∧ InOrder columns.length ks l ∧
        out = (Trident.Sparql.Spec.sliceOpt q.offset q.limit l).map (·.take columns.length)) := by
  obtain ⟨num, columns, hshow, h⟩ := order_read hst hr hload W O ks q hprefixes hgroup htied hslice hnames hks htext
  have hread := h.read
  have hsk : sortKeys (q.pat.meaning q.prefixes num) (ks.map (SKey.meaning num)) = .ok (ks.map fun k => (some (num k.name), k.descending)) :=
    sortKeys_ok ks fun k hk => binds_of (hgroup.occurs (num := num) (hks k hk))
  refine ⟨columns, hshow, fun hlen => ?_⟩
  rcases plan_full E hE hS h with ⟨ht, ha⟩ | ⟨qg, plan, ht, hpr, hor, hp, ⟨rows, hx⟩, hcol, hfew, hocc, hrows⟩
  · refine ⟨⟨_, .empty hread ht⟩, fun out hrun => ?_⟩
    rw [ha]
    cases hrun with
    | empty _ _ => exact ⟨[], .refl _, .nil, by cases q.limit <;> simp [Trident.Sparql.Spec.sliceOpt, Trident.Sparql.Spec.slice]⟩
    | lines h1 _ _ h2 _ _ =>
      rw [hread] at h1
      cases h1
      rw [ht] at h2
      cases h2
  · rw [hdistinct] at hread ht
    have hs := sorted_few hfew hocc
    refine ⟨?_, fun out hrun => ?_⟩
    · obtain ⟨⟨out, hout⟩, _⟩ := sort_plan hstale h hpr hor hs (hrows rows hx).2.2.1
      exact ⟨_, .lines hread hsk (by simpa using hne) ht hp (.all hx (.inr fun x hx => hcol x (mem_sorted.1 hx)) hout)⟩
    · cases hrun with
      | empty h1 h2 =>
        rw [hread] at h1
        cases h1
        rw [ht] at h2
        cases h2
      | lines h1 h5 _ h2 h3 h4 =>
        rw [hread] at h1
        cases h1
        rw [hsk] at h5
        cases h5
        rw [ht] at h2
        cases h2
        rw [hp] at h3
        cases h3
        cases h4 with
        | undefined _ _ hu =>
          obtain ⟨x, hx, hn⟩ := hu
          exact absurd (hcol x (mem_sorted.1 hx)) hn
        | @all rows out hx _ hout =>
          obtain ⟨a1, a2, a3, _⟩ := hrows rows hx
          obtain ⟨b1, b2⟩ := (sort_plan hstale h hpr hor hs a3).2 out hout
          have hperm : ((expand out).map (full V qg)).Perm ((answers P q.prefixes graph q.pat (columns ++ ks.map SKey.name)).map line) := by
            refine (((show (expand out).Perm (expand (rows.map (sortRow qg plan))) from b1.flatMap_right _).map (full V qg)).trans ?_).trans (a2 (columns ++ ks.map SKey.name) fun _ h => h)
            have he : expand (rows.map (sortRow qg plan)) = (expand rows).map fun t => (sorted qg).map (PlanGen.look (PlanGen.cols qg (sorted qg) plan) t) :=
              PlanGen.expand_map (fun t => (sorted qg).map (PlanGen.look (PlanGen.cols qg (sorted qg) plan) t)) rows
            rw [he, List.map_map]
            refine List.Perm.of_eq (List.map_congr_left fun t _ => ?_)
            have := full_row (V := V) (qg := qg) (plan := plan) (1, t)
            rw [Function.comp_apply]
            refine this.trans ?_
            rw [hpr, hor, ← List.map_append]
          refine ⟨_, hperm, ?_, ?_⟩
          · unfold InOrder
            rw [List.pairwise_map]
            exact pairwise_expand (R := fun a b => ¬ OrderBy.Spec.Before (orderOf columns.length ks) (lineCells (full V qg b)) (lineCells (full V qg a)))
              (fun t => OrderBy.Before.irrefl _ _) b2
          · rw [print_lines (printed qg (sorted qg)) h.limit (fun hn => by
              have := hperm.length_eq
              rw [List.length_map, List.length_map, answers_length _ _ _ columns] at this
              rw [this]
              exact hlen hn), sliceOpt_map, List.map_map]
            congr 1
            exact List.map_congr_left fun t _ => full_take hpr t

/-- With any scans that return the rows of the triples. -/
theorem order_distinct_on (E : PlanGen.Est) (hE : E.Fair) (hst : Stored P get V.text) (hstale : V.stale = false) (hr : ReadsIntegers P) (hload : Loaded get graph db) (W : QueryWords)
    (O : OrderWords) (ks : List SKey) (q : SQuery)
    {slice : List Tok} {text : Text} (hprefixes : W.prefixes.length = q.prefixes.length ∧ (∀ p ∈ q.prefixes, 92 ∉ p.2) ∧ (q.prefixes.map (·.1)).Nodup)
    (hgroup : GroupOk P get graph q.prefixes q.pat) (htied : q.Tied) (hslice : SliceToks W slice q.limit 0) (hoffset : q.offset = 0)
    (hnames : ∀ l, q.columns = .names l → l ≠ [] ∧ ∀ x ∈ l, x ∈ q.pat.vars)
    (hdistinct : q.distinct = true) (hne : ks ≠ []) (hks : ∀ k ∈ ks, k.name ∈ q.pat.vars) (htext : Written text (q.toks W (orderToks O ks ++ slice)))
    {S : Scans} (hS : ∀ q : PlanGen.Query, (∀ n ∈ q.nodes, n.vars.Nodup) → PlanGen.ScansOf (S q) db q) :
    ∃ columns, q.Shows columns ∧ ((q.limit = none → (answers P q.prefixes graph q.pat columns).length < 2 ^ 32) → (∃ out, RunSorted E P get V S text out) ∧
      ∀ out, RunSorted E P get V S text out → ∃ l, l.Nodup ∧ ((∀ k ∈ ks, k.name ∈ columns) → (l.map (·.take columns.length)).Nodup) ∧
        (∀ r, r ∈ l ↔ r ∈ (answers P q.prefixes graph q.pat (columns ++ ks.map SKey.name)).map line) ∧ InOrder columns.length ks l ∧
        out = (Trident.Sparql.Spec.sliceOpt 0 q.limit l).map (·.take columns.length)) := by
  rw [← hoffset] at hslice
  obtain ⟨num, columns, hshow, h⟩ := order_read hst hr hload W O ks q hprefixes hgroup htied hslice hnames hks htext
  have hread := h.read
  have hsk : sortKeys (q.pat.meaning q.prefixes num) (ks.map (SKey.meaning num)) = .ok (ks.map fun k => (some (num k.name), k.descending)) :=
    sortKeys_ok ks fun k hk => binds_of (hgroup.occurs (num := num) (hks k hk))
  refine ⟨columns, hshow, fun hlen => ?_⟩
  rcases plan_full E hE hS h with ⟨ht, ha⟩ | ⟨qg, plan, ht, hpr, hor, hp, ⟨rows, hx⟩, hcol, hfew, hocc, hrows⟩
  · refine ⟨⟨_, .empty hread ht⟩, fun out hrun => ?_⟩
    rw [ha]
    cases hrun with
    | empty _ _ => exact ⟨[], .nil, fun _ => .nil, by simp, .nil, by cases q.limit <;> simp [Trident.Sparql.Spec.sliceOpt, Trident.Sparql.Spec.slice]⟩
    | lines h1 _ _ h2 _ _ =>
      rw [hread] at h1
      cases h1
      rw [ht] at h2
      cases h2
  · rw [hdistinct] at hread ht
    have hs := sorted_few hfew hocc
    have hgroups : ∀ {rows : List Row} {enum : Nat → List Nat}, (∀ n, (enum n).Perm (List.range n)) →
        (∀ r ∈ rows, ∀ i ∈ cellsOf qg plan (qg.projection ++ qg.order) r.2, ∃ t, V.text i = some t) →
        ∀ r ∈ Distinct.groupify enum rows, ∀ i ∈ cellsOf qg plan (qg.projection ++ qg.order) r.2, ∃ t, V.text i = some t := by
      intro rows enum he h3 r hr
      obtain ⟨_, h2, _⟩ := Distinct.C72_distinct enum he rows
      obtain ⟨r', hr', e⟩ := List.mem_map.1 ((h2 r.2).1 (List.mem_map_of_mem hr))
      rw [← e]
      exact h3 r' hr'
    refine ⟨?_, fun out hrun => ?_⟩
    · obtain ⟨⟨out, hout⟩, _⟩ := sort_plan hstale h hpr hor hs (hgroups (enum := List.range) (fun _ => .refl _) (hrows rows hx).2.2.1)
      exact ⟨_, .lines hread hsk (by simpa using hne) ht hp (.distinct List.range (fun _ => .refl _) hx (.inr fun x hx => hcol x (mem_sorted.1 hx)) hout)⟩
    · cases hrun with
      | empty h1 h2 =>
        rw [hread] at h1
        cases h1
        rw [ht] at h2
        cases h2
      | lines h1 h5 _ h2 h3 h4 =>
        rw [hread] at h1
        cases h1
        rw [hsk] at h5
        cases h5
        rw [ht] at h2
        cases h2
        rw [hp] at h3
        cases h3
        cases h4 with
        | undefined _ _ hu =>
          obtain ⟨x, hx, hn⟩ := hu
          exact absurd (hcol x (mem_sorted.1 hx)) hn
        | @distinct rows out enum he hx _ hout =>
          obtain ⟨a1, a2, a3, a4⟩ := hrows rows hx
          obtain ⟨b1, b2⟩ := (sort_plan hstale h hpr hor hs (hgroups he a3)).2 out hout
          obtain ⟨c1, c2, c3⟩ := Distinct.C72_distinct enum he rows
          have hback : ∀ r ∈ Distinct.groupify enum rows, ∃ r' ∈ rows, r'.2 = r.2 := fun r hr => List.mem_map.1 ((c2 r.2).1 (List.mem_map_of_mem hr))
          have hcount : ∀ r ∈ Distinct.groupify enum rows, 0 < r.1 := by
            intro r hr
            rw [c3 r hr]
            obtain ⟨r', hr', e⟩ := hback r hr
            exact Trident.Sparql.bag_pos.2 ⟨r', hr', e, Nat.pos_of_ne_zero (a1 r' hr')⟩
          -- what is printed, with the keys
          have hfull : (out.map fun r => full V qg r.2).Perm ((Distinct.groupify enum rows).map fun r => (cellsOf qg plan (qg.projection ++ qg.order) r.2).map V.text) := by
            refine (b1.map _).trans ?_
            rw [List.map_map]
            exact List.Perm.of_eq (List.map_congr_left fun r _ => full_row r)
          have hcells : ∀ r ∈ Distinct.groupify enum rows, ∀ r' ∈ Distinct.groupify enum rows, ∀ xs, (∀ x ∈ xs, x ∈ qg.projection ++ qg.order) → (∀ x ∈ qg.projection ++ qg.order, x ∈ xs) →
              (cellsOf qg plan xs r.2).map V.text = (cellsOf qg plan xs r'.2).map V.text → r.2 = r'.2 := by
            intro r hr r' hr' xs h1 h2 e
            have hsub : ∀ r ∈ Distinct.groupify enum rows, ∀ i ∈ cellsOf qg plan xs r.2, ∃ t, V.text i = some t := by
              intro r hr i hi
              obtain ⟨x, hx, rfl⟩ := List.mem_map.1 hi
              exact hgroups he a3 r hr _ (List.mem_map_of_mem (h1 x hx))
            have e := dict_inj h.stored _ _ (hsub r hr) e
            obtain ⟨s, hs, es⟩ := hback r hr
            obtain ⟨s', hs', es'⟩ := hback r' hr'
            rw [← es, ← es']
            refine a4 s hs s' hs' ?_
            rw [es, es']
            exact List.map_congr_left fun x hx => List.map_inj_left.1 e x (h2 x hx)
          have hnodup : ∀ xs, (∀ x ∈ xs, x ∈ qg.projection ++ qg.order) → (∀ x ∈ qg.projection ++ qg.order, x ∈ xs) →
              ((Distinct.groupify enum rows).map fun r => (cellsOf qg plan xs r.2).map V.text).Nodup := by
            intro xs h1 h2
            rw [List.Nodup, List.pairwise_map] at c1 ⊢
            exact c1.imp_of_mem fun ha hb hn e => hn (hcells _ ha _ hb xs h1 h2 e)
          refine ⟨_, hfull.nodup_iff.2 (hnodup _ (fun _ h => h) fun _ h => h), ?_, ?_, ?_, ?_⟩
          · intro hin
            refine ((hfull.map _).nodup_iff).2 ?_
            rw [List.map_map]
            have := hnodup qg.projection (fun x hx => List.mem_append_left _ hx) (by
              intro x hx
              rcases List.mem_append.1 hx with hx | hx
              · exact hx
              · rw [hor] at hx
                obtain ⟨y, hy, rfl⟩ := List.mem_map.1 hx
                obtain ⟨k, hk, rfl⟩ := List.mem_map.1 hy
                rw [hpr]
                exact List.mem_map_of_mem (hin k hk))
            refine Eq.mp (congrArg List.Nodup (List.map_congr_left fun r _ => ?_)) this
            rw [Function.comp_apply]
            unfold cellsOf
            rw [List.map_append, List.map_append, List.take_left' (by rw [List.length_map, List.length_map, hpr, List.length_map])]
          · intro r
            rw [hfull.mem_iff, ← (a2 (columns ++ ks.map SKey.name) fun _ h => h).mem_iff, List.map_append, ← hpr, ← hor, List.mem_map, List.mem_map]
            constructor
            · rintro ⟨g, hg, rfl⟩
              obtain ⟨s, hs, es⟩ := hback g hg
              exact ⟨g.2, PlanGen.mem_expand.2 ⟨s, hs, a1 s hs, es⟩, rfl⟩
            · rintro ⟨t, ht, rfl⟩
              obtain ⟨s, hs, _, rfl⟩ := PlanGen.mem_expand.1 ht
              obtain ⟨g, hg, e⟩ := List.mem_map.1 ((c2 s.2).2 (List.mem_map_of_mem hs))
              exact ⟨g, hg, by rw [e]⟩
          · unfold InOrder
            rw [List.pairwise_map]
            exact b2
          · have hpos : ∀ r ∈ out.map fun r => (r.1, printed qg (sorted qg) r.2), 0 < r.1 := by
              intro r hr
              obtain ⟨r', hr', rfl⟩ := List.mem_map.1 hr
              obtain ⟨g, hg, rfl⟩ := List.mem_map.1 (b1.mem_iff.1 hr')
              exact hcount g hg
            have hlim : 0 < Limit.limitOf q.limit := by
              cases hl : q.limit with
              | none => decide
              | some n => exact h.limit n hl
            simp only [hoffset]
            rw [Limit.C73_distinct_partial _ hlim _ hpos, List.map_map, sliceOpt_map, List.map_map]
            have e : (out.map ((fun r : Row => r.2) ∘ fun r => (r.1, printed qg (sorted qg) r.2))).map (fun t : Tup => t.map V.text) =
                out.map ((fun r : List (Option Text) => r.take columns.length) ∘ fun r => full V qg r.2) := by
              rw [List.map_map]
              exact List.map_congr_left fun r _ => full_take hpr r.2
            rw [← e, ← sliceOpt_map]
            congr 1
            cases hl : q.limit with
            | some n => rfl
            | none =>
              unfold Trident.Sparql.Spec.slice Trident.Sparql.Spec.sliceOpt
              rw [List.take_of_length_le]
              have hsub := c1.length_le_of_subset (l₂ := expand rows) (by
                intro t ht
                obtain ⟨g, hg, rfl⟩ := List.mem_map.1 ht
                obtain ⟨r, hr, e⟩ := hback g hg
                exact PlanGen.mem_expand.2 ⟨r, hr, a1 r hr, e⟩)
              have hl1 := (a2 (columns ++ ks.map SKey.name) fun _ h => h).length_eq
              rw [List.length_map, List.length_map, answers_length _ _ _ columns] at hl1
              have hl2 := b1.length_eq
              have := hlen hl
              simp only [List.length_drop, List.length_map, Limit.limitOf] at *
              omega

/-! ## Theorems -/

/-- **C89 (SELECT with ORDER BY, part).** A text that is written as a SELECT query with ORDER BY has an output, and each output is the part that LIMIT and OFFSET say of the answers of
the query, in the order of the keys: `l` are the answers with the values of the keys.
Missing: as for `C86_select_partial`; keys that are not variables of the group (see `C89_expression_violated`, `C89_star_violated` and `C89_count_violated`); and stores where the last
term that was looked up begins with `<` (see `C89_stale_violated`). -/
theorem C89_query_partial (E : PlanGen.Est) (hE : E.Fair) (hst : Stored P get V.text) (hstale : V.stale = false) (hr : ReadsIntegers P) (hload : Loaded get graph db) (W : QueryWords)
    (O : OrderWords) (ks : List SKey) (q : SQuery)
    {slice : List Tok} {text : Text} (hprefixes : W.prefixes.length = q.prefixes.length ∧ (∀ p ∈ q.prefixes, 92 ∉ p.2) ∧ (q.prefixes.map (·.1)).Nodup)
    (hgroup : GroupOk P get graph q.prefixes q.pat) (htied : q.Tied) (hslice : SliceToks W slice q.limit q.offset) (hnames : ∀ l, q.columns = .names l → l ≠ [] ∧ ∀ x ∈ l, x ∈ q.pat.vars)
    (hdistinct : q.distinct = false) (hne : ks ≠ []) (hks : ∀ k ∈ ks, k.name ∈ q.pat.vars) (htext : Written text (q.toks W (orderToks O ks ++ slice))) :
    ∃ columns, q.Shows columns ∧ ((q.limit = none → (answers P q.prefixes graph q.pat columns).length < 2 ^ 32) → (∃ out, RunSorted E P get V (PlanGen.ScanRows db) text out) ∧
      ∀ out, RunSorted E P get V (PlanGen.ScanRows db) text out → ∃ l, l.Perm ((answers P q.prefixes graph q.pat (columns ++ ks.map SKey.name)).map line) ∧ InOrder columns.length ks l ∧
        out = (Trident.Sparql.Spec.sliceOpt q.offset q.limit l).map (·.take columns.length)) :=
  order_on E hE hst hstale hr hload W O ks q hprefixes hgroup htied hslice hnames hdistinct hne hks htext fun _ _ => PlanGen.scansOf_rows

/-- **C89 (SELECT DISTINCT with ORDER BY, part).** With DISTINCT, without OFFSET and with keys that are columns: the same, and each line is written once.
Missing: as for `C89_query_partial`, OFFSET (`C73_distinct_offset_violated`), and keys that are not columns (`C89_distinct_violated`). -/
theorem C89_query_distinct_partial (E : PlanGen.Est) (hE : E.Fair) (hst : Stored P get V.text) (hstale : V.stale = false) (hr : ReadsIntegers P) (hload : Loaded get graph db) (W : QueryWords)
    (O : OrderWords) (ks : List SKey) (q : SQuery)
    {slice : List Tok} {text : Text} (hprefixes : W.prefixes.length = q.prefixes.length ∧ (∀ p ∈ q.prefixes, 92 ∉ p.2) ∧ (q.prefixes.map (·.1)).Nodup)
    (hgroup : GroupOk P get graph q.prefixes q.pat) (htied : q.Tied) (hslice : SliceToks W slice q.limit 0) (hoffset : q.offset = 0) (hnames : ∀ l, q.columns = .names l → l ≠ [] ∧ ∀ x ∈ l, x ∈ q.pat.vars)
    (hdistinct : q.distinct = true) (hne : ks ≠ []) (hks : ∀ k ∈ ks, k.name ∈ q.pat.vars) (htext : Written text (q.toks W (orderToks O ks ++ slice))) :
    ∃ columns, q.Shows columns ∧ ((∀ k ∈ ks, k.name ∈ columns) → (q.limit = none → (answers P q.prefixes graph q.pat columns).length < 2 ^ 32) →
      (∃ out, RunSorted E P get V (PlanGen.ScanRows db) text out) ∧
      ∀ out, RunSorted E P get V (PlanGen.ScanRows db) text out → ∃ l, (l.map (·.take columns.length)).Nodup ∧
        (∀ r, r ∈ l ↔ r ∈ (answers P q.prefixes graph q.pat (columns ++ ks.map SKey.name)).map line) ∧ InOrder columns.length ks l ∧
        out = (Trident.Sparql.Spec.sliceOpt 0 q.limit l).map (·.take columns.length)) := by
  obtain ⟨columns, hc, hrun⟩ := order_distinct_on E hE hst hstale hr hload W O ks q hprefixes hgroup htied hslice hoffset hnames hdistinct hne hks htext fun _ _ => PlanGen.scansOf_rows
  refine ⟨columns, hc, fun hin hlen => ⟨(hrun hlen).1, fun out ho => ?_⟩⟩
  obtain ⟨l, _, h2, h3⟩ := (hrun hlen).2 out ho
  exact ⟨l, h2 hin, h3⟩

/-- **C89 (SELECT with ORDER BY over a loaded store, part).** The same for the store that is opened after triples were loaded with three or six indices.
Missing: as for `C89_query_partial`. -/
theorem C89_load_partial (c : Load.Config) (g : List Load.T3) (h : c.Ok g) (hg : g ≠ []) (hall : c.nindices = 3 ∨ c.nindices = 6) {m : Mem} {M : Nat → Load.Maps}
    (hM : ∀ i, i < 6 → Load.Mapped m (M i) (c.ins g i).store.files) (V' : Env) (hV : SortsPairs V'.sortP) (hf : g.length < V'.fuel) (srt : List Int → List Int)
    (hnd : db.Nodup) (hdb : ∀ t, t ∈ db ↔ t ∈ g)
    (E : PlanGen.Est) (hE : E.Fair) (hst : Stored P get V.text) (hstale : V.stale = false) (hr : ReadsIntegers P) (hload : Loaded get graph db) (W : QueryWords)
    (O : OrderWords) (ks : List SKey) (q : SQuery)
    {slice : List Tok} {text : Text} (hprefixes : W.prefixes.length = q.prefixes.length ∧ (∀ p ∈ q.prefixes, 92 ∉ p.2) ∧ (q.prefixes.map (·.1)).Nodup)
    (hgroup : GroupOk P get graph q.prefixes q.pat) (htied : q.Tied) (hslice : SliceToks W slice q.limit q.offset) (hnames : ∀ l, q.columns = .names l → l ≠ [] ∧ ∀ x ∈ l, x ∈ q.pat.vars)
    (hdistinct : q.distinct = false) (hne : ks ≠ []) (hks : ∀ k ∈ ks, k.name ∈ q.pat.vars) (htext : Written text (q.toks W (orderToks O ks ++ slice))) :
    ∃ columns, q.Shows columns ∧ ((q.limit = none → (answers P q.prefixes graph q.pat columns).length < 2 ^ 32) → (∃ out, RunSorted E P get V (loadedScans c g m M V' srt) text out) ∧
      ∀ out, RunSorted E P get V (loadedScans c g m M V' srt) text out → ∃ l, l.Perm ((answers P q.prefixes graph q.pat (columns ++ ks.map SKey.name)).map line) ∧ InOrder columns.length ks l ∧
        out = (Trident.Sparql.Spec.sliceOpt q.offset q.limit l).map (·.take columns.length)) :=
  order_on E hE hst hstale hr hload W O ks q hprefixes hgroup htied hslice hnames hdistinct hne hks htext (scansOf_load c g h hg hall hM V' hV hf srt hnd hdb)

/-! ## Examples -/

def capsOrder : OrderWords where
  order := str "ORDER"
  by_ := str "BY"
  asc := str "ASC"
  desc := str "DESC"
  horder := by decide
  hby := by decide
  hasc := by decide
  hdesc := by decide

/-- The dictionary of the example, after a literal was looked up. -/
def env2 : OrderBy.Env := ⟨dictOf cells2, false, fun _ _ => .eq⟩

/-- `PREFIX e: <http://> SELECT ?s ?v WHERE { ?s e:p ?o ; e:q ?v FILTER(?o < 10) } ORDER BY DESC(?o) ?s OFFSET 1 LIMIT 5` has an output. -/
example : ∃ out, RunSorted PlanGen.exampleEst intLib (ofTerms cells2) env2 (PlanGen.ScanRows db2)
    (printAll (query4.toks capsQuery (orderToks capsOrder [.desc (str "o"), .plain (str "s")] ++ [ident (str "OFFSET"), int1 "1", ident (str "LIMIT"), int1 "5"]))) out := by
  obtain ⟨columns, hc, hrun⟩ := C89_query_partial (V := env2) PlanGen.exampleEst fairEst cells2_stored rfl intLib_reads loaded2 capsQuery capsOrder [.desc (str "o"), .plain (str "s")] query4
    ⟨rfl, by decide +kernel, by decide⟩ pat4_group tied4 slice4 names4 rfl (by simp) (by decide +kernel) (written_print (query4.toks capsQuery _) (by decide +kernel))
  exact (hrun nofun).1

/-- The answers of the example, with the values of the keys; they are already in the order that is asked for. -/
example : (answers intLib preE graph2 pat4 [str "s", str "v", str "o", str "s"]).map line =
    [[some (str "<http://a>"), some (str "\"x\""), some (Term.typed (str "5") xsdInteger).text, some (str "<http://a>")],
      [some (str "<http://b>"), some (str "\"x\""), some (Term.typed (str "-7") xsdInteger).text, some (str "<http://b>")]] := by decide +kernel

/-- `PREFIX e: <http://> SELECT DISTINCT * WHERE { ?s e:p ?o ; e:q ?v FILTER(?o < 10) } ORDER BY ASC(?s)` -/
example := C89_query_distinct_partial (V := env2) PlanGen.exampleEst fairEst cells2_stored rfl intLib_reads loaded2 capsQuery capsOrder [.asc (str "s")] query5 ⟨rfl, by decide +kernel, by decide⟩
  pat4_group (fun _ _ _ _ _ _ _ _ _ => .inl (.inl trivial)) .none rfl (fun l h => by cases h) rfl (by simp) (by decide +kernel)
  (written_print (query5.toks capsQuery _) (by decide +kernel))

/-- The first example over a loaded store. -/
example : ∃ (m : Mem) (M : Nat → Load.Maps), (∀ i, i < 6 → Load.Mapped m (M i) (exConfig.ins g2 i).store.files) ∧
    ∃ out, RunSorted PlanGen.exampleEst intLib (ofTerms cells2) env2 (loadedScans exConfig g2 m M ⟨isort, msort, 100⟩ sortInts)
      (printAll (query4.toks capsQuery (orderToks capsOrder [.desc (str "o"), .plain (str "s")] ++ [ident (str "OFFSET"), int1 "1", ident (str "LIMIT"), int1 "5"]))) out := by
  obtain ⟨m, M, hM⟩ := Load.exists_mapped fun i => (exConfig.ins g2 i).store.files
  have hmem : ∀ t, t ∈ db2 ↔ t ∈ g2 := by
    have h1 : ∀ t ∈ db2, t ∈ g2 := by decide
    have h2 : ∀ t ∈ g2, t ∈ db2 := by decide
    exact fun t => ⟨h1 t, h2 t⟩
  obtain ⟨columns, hc, hrun⟩ := C89_load_partial (V := env2) exConfig g2 ok2 (by decide) (.inr rfl) hM ⟨isort, msort, 100⟩ isort_sorts (show 6 < 100 by omega) sortInts (by decide) hmem
    PlanGen.exampleEst fairEst cells2_stored rfl intLib_reads loaded2 capsQuery capsOrder [.desc (str "o"), .plain (str "s")] query4 ⟨rfl, by decide +kernel, by decide⟩ pat4_group tied4 slice4 names4 rfl
    (by simp) (by decide +kernel) (written_print (query4.toks capsQuery _) (by decide +kernel))
  exact ⟨m, M, hM, (hrun nofun).1⟩

/-! ## Violations -/

/-- `PREFIX e: <http://> SELECT DISTINCT ?v WHERE { ?s e:p ?o ; e:q ?v FILTER(?o < 10) }` -/
def query6 : SQuery := ⟨preE, true, .names [str "v"], pat4, none, 0⟩

theorem tied6 : query6.Tied := by
  intro i t hi _ x hx y hy _
  have e : query6.pat.triples = pat4.triples := rfl
  rw [e, pat4_triples] at hi
  match i with
  | 0 =>
    cases hi
    left
    simp only [tripleVars, SElem.vars, List.nil_append, List.singleton_append, List.mem_cons, List.not_mem_nil, or_false] at hx
    rcases hx with rfl | rfl
    · exact .inr (.inr ⟨1, _, by decide, by rw [e, pat4_triples]; rfl, by decide +kernel⟩)
    · exact .inr (.inl ⟨less10, List.mem_singleton.2 rfl, by decide +kernel⟩)
  | 1 =>
    cases hi
    left
    simp only [tripleVars, SElem.vars, List.nil_append, List.singleton_append, List.mem_cons, List.not_mem_nil, or_false] at hx
    rcases hx with rfl | rfl
    · exact .inr (.inr ⟨0, _, by decide, by rw [e, pat4_triples]; rfl, by decide +kernel⟩)
    · exact .inl (by simp [query6, Columns.Has])
  | n + 2 => simp at hi

/-- **With DISTINCT, a line is written twice** if ORDER BY has a variable that is not a column: `SELECT DISTINCT ?v WHERE { ?s e:p ?o ; e:q ?v FILTER(?o < 10) } ORDER BY ?s`. -/
theorem C89_distinct_violated (E : PlanGen.Est) (hE : E.Fair) : (∃ out, RunSorted E intLib (ofTerms cells2) env2 (PlanGen.ScanRows db2)
      (printAll (query6.toks capsQuery (orderToks capsOrder [.plain (str "s")] ++ []))) out) ∧
    ∀ out, RunSorted E intLib (ofTerms cells2) env2 (PlanGen.ScanRows db2) (printAll (query6.toks capsQuery (orderToks capsOrder [.plain (str "s")] ++ []))) out →
      out = [[some (str "\"x\"")], [some (str "\"x\"")]] := by
  obtain ⟨columns, hc, hrun⟩ := order_distinct_on (V := env2) E hE cells2_stored rfl intLib_reads loaded2 capsQuery capsOrder [.plain (str "s")] query6 ⟨rfl, by decide +kernel, by decide⟩
    pat4_group tied6 .none rfl (fun l h => by cases h; exact ⟨nofun, by decide +kernel⟩) rfl (by simp) (by decide +kernel) (written_print (query6.toks capsQuery _) (by decide +kernel))
    (S := PlanGen.ScanRows db2) fun _ _ => PlanGen.scansOf_rows
  have hc : columns = [str "v"] := hc
  subst hc
  obtain ⟨h1, h2⟩ := hrun fun _ => by decide +kernel
  refine ⟨h1, fun out ho => ?_⟩
  obtain ⟨l, a1, _, a3, _, rfl⟩ := h2 out ho
  have ha : (answers intLib query6.prefixes graph2 query6.pat ([str "v"] ++ [SKey.plain (str "s")].map SKey.name)).map line =
    [[some (str "\"x\""), some (str "<http://a>")], [some (str "\"x\""), some (str "<http://b>")]] := by decide +kernel
  rw [ha] at a3
  have hp : l.Perm [[some (str "\"x\""), some (str "<http://a>")], [some (str "\"x\""), some (str "<http://b>")]] :=
    (List.perm_ext_iff_of_nodup a1 (by decide)).2 a3
  have hl := hp.length_eq
  match l, hl with
  | [a, b], _ =>
    have e : ∀ r ∈ [a, b], r.take 1 = [some (str "\"x\"")] := by
      intro r hr
      have := (a3 r).1 hr
      simp only [List.mem_cons, List.not_mem_nil, or_false] at this
      rcases this with rfl | rfl <;> rfl
    show [a.take 1, b.take 1] = _
    rw [e a (by simp), e b (by simp)]

/-- What `transform` does with a text. -/
def analysed (text : Text) : Except Err Bool := (readQuery text).bind fun p => (transform intLib (ofTerms cells2) (dictOf cells2) p).map Option.isSome

/-- **A query is not answered** if ORDER BY has an expression that is not a variable: the text is accepted by the parser, and then an exception is thrown. -/
theorem C89_expression_violated : (readQuery (str "select ?s { ?s ?p ?o } order by desc(str(?o))")).map (fun p => p.order.length) = .ok 1 ∧
    analysed (str "select ?s { ?s ?p ?o } order by desc(str(?o))") = .error .exception ∧ analysed (str "select ?s { ?s ?p ?o } order by desc(?o)") = .ok true := by decide +kernel

/-- The columns of a query, in the order in which they are read. -/
def columnsOf (text : Text) : Except Err (List Nat) := (readPrologue text).bind fun p =>
  (projection p.1 (p.2.toks.length + 1) true (modifier (pop p.2).2).2).bind fun c => (parseWhere p.1 c.2).bind fun g => (orderBy p.1 g.2).bind fun o =>
    (limitOffset (o.2.toks.length + 1) none 0 o.2).map fun l => if c.1 = [] then l.2.2.names.map (·.2) else c.1

theorem columnsOf_length {text : Text} {p : Parsed} (h : readQuery text = .ok p) : (columnsOf text).map List.length = .ok p.projection.length := by
  unfold readQuery readNamed at h
  unfold columnsOf
  cases h0 : readPrologue text with
  | error => rw [h0] at h; cases h
  | ok t =>
    rw [h0] at h
    simp only [Except.bind, parseSelect] at h ⊢
    split at h
    · cases h
    split at h
    · cases h
    cases h1 : projection t.1 (t.2.toks.length + 1) true (modifier (pop t.2).2).2 with
    | error => rw [h1] at h; cases h
    | ok c =>
      rw [h1] at h
      simp only at h ⊢
      split at h
      · cases h
      cases h2 : parseWhere t.1 c.2 with
      | error => rw [h2] at h; cases h
      | ok g =>
        rw [h2] at h
        simp only at h ⊢
        split at h
        · cases h
        cases h3 : orderBy t.1 g.2 with
        | error => rw [h3] at h; cases h
        | ok o =>
          rw [h3] at h
          simp only at h ⊢
          cases h4 : limitOffset (o.2.toks.length + 1) none 0 o.2 with
          | error => rw [h4] at h; cases h
          | ok l =>
            rw [h4] at h
            simp only [Except.map] at h ⊢
            split at h
            · cases h
            · rename_i e
              cases h
              split at e
              · cases e
              · cases e
                simp only [allVariables]
                split <;> simp

/-- **`SELECT *` has a column that is not in the group** if ORDER BY has a variable that is not there. -/
theorem C89_star_violated : (∃ p, readQuery (str "select * { ?s ?p ?o } order by ?z") = .ok p) ∧
    (∀ p, readQuery (str "select * { ?s ?p ?o } order by ?z") = .ok p → p.projection.length = 4 ∧ binds 3 p.group = false) ∧
    ∀ p, readQuery (str "select * { ?s ?p ?o }") = .ok p → p.projection.length = 3 := by
  have hread : (readQuery (str "select * { ?s ?p ?o } order by ?z")).map (fun p => binds 3 p.group) = .ok false := by decide +kernel
  refine ⟨?_, fun p hp => ⟨?_, ?_⟩, fun p hp => ?_⟩
  · cases h : readQuery (str "select * { ?s ?p ?o } order by ?z") with
    | error => rw [h] at hread; cases hread
    | ok p => exact ⟨p, rfl⟩
  · have h1 := columnsOf_length hp
    have h2 : (columnsOf (str "select * { ?s ?p ?o } order by ?z")).map List.length = .ok 4 := by decide +kernel
    rw [h2] at h1
    exact (Except.ok.inj h1).symm
  · rw [hp] at hread
    exact Except.ok.inj hread
  · have h1 := columnsOf_length hp
    have h2 : (columnsOf (str "select * { ?s ?p ?o }")).map List.length = .ok 3 := by decide +kernel
    rw [h2] at h1
    exact (Except.ok.inj h1).symm

/-- A query with a column that has no value. -/
def nullText : Text := str "select ?s ?z { ?s ?p ?o } order by ?o"

/-- The query graph of `nullText`. -/
def nullGraph : PlanGen.Query := ⟨[(.var 0, .var 2, .var 3)], [], [0, 1], [3]⟩

/-- A graph without conditions. -/
def bare : Except Err (Option PlanGen.Query) → Option (List PlanGen.Node × List Nat × List Nat)
  | .ok (some ⟨ns, [], p, o⟩) => some (ns, p, o)
  | _ => none

theorem nullText_read : ∃ p, readQuery nullText = .ok p ∧ transform intLib (ofTerms cells2) (dictOf cells2) p = .ok (some nullGraph) ∧ sortKeys p.group p.order = .ok [(some 3, false)] := by
  have key : bare ((readQuery nullText).bind (transform intLib (ofTerms cells2) (dictOf cells2))) = some (nullGraph.nodes, nullGraph.projection, nullGraph.order) := by decide +kernel
  have keys : ((readQuery nullText).bind fun p => sortKeys p.group p.order) = .ok [(some 3, false)] := by decide +kernel
  cases h : readQuery nullText with
  | error => rw [h] at keys; cases keys
  | ok p =>
    rw [h] at key keys
    refine ⟨p, rfl, ?_, keys⟩
    simp only [Except.bind] at key
    unfold bare at key
    split at key
    · rename_i ns pr o e
      simp only [Option.some.injEq, Prod.mk.injEq] at key
      rw [e, key.1, key.2.1, key.2.2]
      rfl
    · cases key

/-- **A null pointer is used** if a column has no value and there is ORDER BY: `select ?s ?z { ?s ?p ?o } order by ?o` over five triples.  Anything can be the output. -/
theorem C89_null_violated (E : PlanGen.Est) (hE : E.Fair) (out : List Tup) :
    RunSorted E intLib (ofTerms cells2) env2 (PlanGen.ScanRows db2) nullText (out.map fun t => t.map env2.text) := by
  obtain ⟨p, hread, ht, hk⟩ := nullText_read
  have hq : PlanGen.Fine nullGraph := ⟨by decide +kernel, nofun⟩
  have hdb : ∀ t ∈ db2, t.1 < 2 ^ 64 ∧ t.2.1 < 2 ^ 64 ∧ t.2.2 < 2 ^ 64 := by decide
  obtain ⟨plan, hp, hf⟩ := PlanGen.translate_final (q := nullGraph) hE (by decide) (by decide)
  obtain ⟨hw, hW, hU⟩ := PlanGen.final_wf hf
  have htied : PlanGen.Spec.Tied nullGraph := by
    rintro i n hi ⟨k, hk⟩
    match i with
    | 0 =>
      cases hi
      simp at hk
    | n + 1 => simp [nullGraph] at hi
  obtain ⟨rows, hx⟩ := PlanGen.exec_exists_on (PlanGen.scansOf_rows (db := db2) (q := nullGraph)) hq htied hdb (by nofun) hw hW hU
  have hr := PlanGen.exec_rows hq hdb (PlanGen.exec_mono PlanGen.scansOf_rows hx hw) hw hU
  obtain ⟨p', ok, rfl, hw', hs', hn', hl', hall⟩ := hf.base
  have hans := PlanGen.plan_answers (db := db2) hq hw' hs' hn' hl' (fun j hj => List.mem_range.1 hj) fun j hj => (hall j hj).imp id fun h => ⟨List.mem_range.2 hj, h⟩
  refine .lines hread hk (by simp) ht hp (.undefined hx ?_ ?_)
  · rintro rfl
    have h0 : (PlanGen.sols db2 nullGraph _).map _ = [] := List.Perm.eq_nil hr.perm.symm
    have h1 : PlanGen.sols db2 nullGraph _ = [] := List.map_eq_nil_iff.1 h0
    have h3 := hans.length_eq
    rw [List.length_map, show (PlanGen.sols db2 nullGraph (PlanGen.stack ok _ (List.range nullGraph.filters.length))).length = 0 from congrArg List.length h1] at h3
    have h2 : PlanGen.Spec.answers db2 nullGraph = [] := List.length_eq_zero_iff.1 h3.symm
    revert h2
    decide +kernel
  · refine ⟨1, by decide +kernel, fun h => ?_⟩
    have hv := ((PlanGen.mem_cols hw hU 1).1 h).2
    obtain ⟨i, hi, h1⟩ := PlanGen.mem_vars_leaf.1 hv
    have : i < 1 := PlanGen.leaves_lt hw' i hi
    have : i = 0 := by omega
    subst this
    revert h1
    decide +kernel

end Trident.Sparql.Parse
