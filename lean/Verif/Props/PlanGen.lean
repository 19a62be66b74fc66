import Verif.Sparql.PlanWF
/-!
# C85: The plan of a query returns its answers

Statements about `translate` (Sparql/PlanGen.lean) and the operators of plans; the answers are `Spec.answers` (Sparql/PlanSpec.lean).
-/
namespace Trident.Sparql.PlanGen
open Analysis (PElem)
open Spec (value)

theorem whole_of_sub {q : Query} {p : Plan} (h : Sub q p) : Whole q p := by
  induction p with
  | scan k o f i => trivial
  | filter j p ih => exact ⟨fun x hx => .inl (h.1 x hx), ih h.2⟩
  | nest l r ih1 ih2 => exact ⟨ih1 h.1, ih2 h.2⟩
  | merge x l r ih1 ih2 => exact ⟨ih1 h.1, ih2 h.2⟩
  | hash l r ih1 ih2 => exact ⟨ih1 h.1, ih2 h.2⟩
  | cart l r ih1 ih2 => exact ⟨ih1 h.1, ih2 h.2⟩

theorem whole_stack {q : Query} (ok : Nat → Bool) (js : List Nat) : ∀ {p : Plan}, (∀ n ∈ q.nodes, ∀ x ∈ n.vars, x ∈ p.vars q) → Whole q p → Whole q (stack ok p js) := by
  induction js with
  | nil => intro p _ h; exact h
  | cons j js ih =>
    intro p hv h
    have hs : stack ok p (j :: js) = stack ok (if ok j then .filter j p else p) js := rfl
    rw [hs]
    split
    · refine ih (p := .filter j p) hv ⟨fun x _ => ?_, h⟩
      by_cases hx : ∃ n ∈ q.nodes, x ∈ n.vars
      · obtain ⟨n, hn, hx⟩ := hx
        exact .inl (hv n hn x hx)
      · exact .inr fun n hn h => hx ⟨n, hn, h⟩
    · exact ih hv h

theorem final_wf {q : Query} {p : Plan} (h : Final q p) : WF q p ∧ Whole q p ∧ Used q (setOf (q.projection ++ q.order)) p := by
  obtain ⟨p', ok, rfl, hw, hs, hn, hl, _⟩ := h.base
  refine ⟨(stack_spec [] ok _ p' hw fun j hj => List.mem_range.1 hj).1, whole_stack ok _ ?_ (whole_of_sub hs), ?_⟩
  · intro n hm x hx
    have hp := (perm_range hn (leaves_lt hw) hl).map q.node
    rw [map_node] at hp
    obtain ⟨i, hi, rfl⟩ := List.mem_map.1 (hp.mem_iff.2 hm)
    exact mem_vars_leaf.2 ⟨i, hi, hx⟩
  intro x hx i _ _
  rw [mem_setOf, List.mem_append] at hx
  unfold used
  rcases hx with hx | hx
  · simp [hx]
  · simp [hx]

theorem expand_out {β : Type} (f : Tup → β) (rows : List Row) : ((rows.map fun r => (r.1, f r.2)).flatMap fun r => List.replicate r.1 r.2) = (expand rows).map f := by
  induction rows with
  | nil => rfl
  | cons r l ih => rw [List.map_cons, List.flatMap_cons, ih, expand_cons, List.map_append, List.map_replicate]

/-- **C85.** For all estimates of costs and cardinalities: a query with triple patterns (at most 64, none of which has the same variable twice, and none of those with a constant two variables that are nowhere else) and conditions gets a plan, the
plan can be executed, and what is printed are the answers, each as often as there are choices of triples for it.  It is assumed that the conditions can be evaluated for the values that single patterns give to their variables.
Missing: patterns with a variable twice (see `C85_repeated_violated`), patterns with a constant and two variables that are nowhere else (see `C85_constant_violated`), more than 64 patterns and groups without patterns (see `C85_wide_violated`, `C85_empty_violated`), and the other
parts of groups. -/
theorem C85_answers_partial (E : Est) (hE : E.Fair) (db : List Triple) (hdb : ∀ t ∈ db, t.1 < 2 ^ 64 ∧ t.2.1 < 2 ^ 64 ∧ t.2.2 < 2 ^ 64)
    (q : Query) (hne : q.nodes ≠ []) (hwidth : q.nodes.length ≤ 64) (hvars : ∀ n ∈ q.nodes, n.vars.Nodup) (htied : Spec.Tied q)
    (hfilters : ∀ f ∈ q.filters, ∀ g g' : Nat → Option Nat, (∀ x ∈ f.vars, g x = g' x) → f.holds g = f.holds g') (hsafe : ∀ f ∈ q.filters, Spec.Safe db q.nodes f) :
    ∃ p, translate E q = some p ∧ (∃ out, Answers db q p out) ∧
      ∀ out, Answers db q p out → (out.flatMap fun r => List.replicate r.1 r.2).Perm (Spec.answers db q) := by
  have hq : Fine q := ⟨hvars, hfilters⟩
  obtain ⟨p, hp, hf⟩ := translate_final hE hne hwidth
  obtain ⟨hw, hW, hU⟩ := final_wf hf
  refine ⟨p, hp, ?_, ?_⟩
  · obtain ⟨rows, h⟩ := exec_exists hq htied hdb hsafe hw hW hU
    exact ⟨_, rows, h, rfl⟩
  · rintro out ⟨rows, h, rfl⟩
    have hr := exec_rows hq hdb h hw hU
    rw [expand_out fun t => q.projection.map fun x => if (cols q (setOf (q.projection ++ q.order)) p).contains x then some (look (cols q (setOf (q.projection ++ q.order)) p) t x) else none]
    refine (hr.perm.map _).trans ?_
    rw [List.map_map]
    have hmap : (sols db q p).map ((fun t => q.projection.map fun x => if (cols q (setOf (q.projection ++ q.order)) p).contains x then some (look (cols q (setOf (q.projection ++ q.order)) p) t x) else none) ∘
        fun c => (cols q (setOf (q.projection ++ q.order)) p).map (val c)) = (sols db q p).map fun c => q.projection.map (value c) := by
      refine List.map_congr_left fun c hc => List.map_congr_left fun x hx => ?_
      have hcol := mem_cols hw hU x
      by_cases hm : x ∈ cols q (setOf (q.projection ++ q.order)) p
      · rw [if_pos (by simpa using hm), look_map' hm, value_eq_val ((mem_sols hc).2 ▸ (hcol.1 hm).2)]
      · rw [if_neg (by simpa using hm)]
        refine (value_none fun h => hm (hcol.2 ⟨mem_setOf.2 (List.mem_append_left _ hx), (mem_sols hc).2 ▸ h⟩)).symm
    rw [hmap]
    obtain ⟨p', ok, rfl, hw', hs', hn', hl', hall⟩ := hf.base
    exact plan_answers hq hw' hs' hn' hl' (fun j hj => List.mem_range.1 hj) fun j hj => (hall j hj).imp id fun h => ⟨List.mem_range.2 hj, h⟩

/-- The conditions can always be compared by cost. -/
def exampleEst : Est where
  C := Nat
  le := fun a b => decide (a ≤ b)
  ge := fun a b => decide (a ≥ b)
  better := fun a b => decide (a < b)
  scan := fun _ _ _ i => i + 1
  filter := fun c => c
  join := fun op _ a b => (match op with | .merge => 1 | .hash => 3 | .nest => 9 | .cart => 20) + a + b
  nonneg := fun _ _ => true

/-- `SELECT ?a ?c { ?a 10 ?b . ?b 11 ?c . ?d ?f ?e . FILTER(?a != ?c) FILTER(?b > 1) }` -/
def exampleQuery : Query where
  nodes := [(.var 0, .const 10, .var 1), (.var 1, .const 11, .var 2), (.var 3, .var 5, .var 4)]
  filters := [⟨[0, 2], fun g => g 0 != g 2, fun g => (g 0).isSome && (g 2).isSome⟩, ⟨[1], fun g => match g 1 with | some v => decide (v > 1) | none => false, fun g => (g 1).isSome⟩]
  projection := [0, 2]
  order := []

def exampleDb : List Triple := [(5, 10, 2), (6, 10, 2), (7, 10, 1), (2, 11, 5)]

theorem example_plan : translate exampleEst exampleQuery = some (.filter 0 (.cart (.scan .fully .pso false 2) (.merge 1 (.filter 1 (.scan .full .osp false 0)) (.filter 1 (.scan .full .pso false 1))))) := by decide +kernel

example : exampleEst.Fair ∧ exampleQuery.nodes ≠ [] ∧ (∀ n ∈ exampleQuery.nodes, n.vars.Nodup) ∧ (∀ f ∈ exampleQuery.filters, ∀ g g' : Nat → Option Nat, (∀ x ∈ f.vars, g x = g' x) → f.holds g = f.holds g') ∧
    Spec.answers exampleDb exampleQuery = [[some 6, some 5], [some 6, some 5], [some 6, some 5], [some 6, some 5]] := by
  refine ⟨⟨(fun (c : Nat) => decide_eq_true (Nat.le_refl c)), fun _ _ _ => rfl⟩, by decide, by decide, ?_, by decide +kernel⟩
  intro f hf g g' h
  simp only [exampleQuery, List.mem_cons, List.not_mem_nil, or_false] at hf
  rcases hf with rfl | rfl
  · simp only [h 0 (by simp), h 2 (by simp)]
  · simp only [h 1 (by simp)]

example : Spec.Tied exampleQuery := by
  rintro i n hn ⟨k, hk⟩ x y hxy hx hy
  match i with
  | 0 =>
    cases hn
    simp only [List.mem_cons, List.not_mem_nil, or_false, PElem.var.injEq, reduceCtorEq, false_or] at hx hy
    have : x = 0 ∨ y = 0 := by omega
    rcases this with rfl | rfl
    · exact .inl (.inl (by decide))
    · exact .inr (.inl (by decide))
  | 1 =>
    cases hn
    simp only [List.mem_cons, List.not_mem_nil, or_false, PElem.var.injEq, reduceCtorEq, false_or] at hx hy
    have : x = 2 ∨ y = 2 := by omega
    rcases this with rfl | rfl
    · exact .inl (.inl (by decide))
    · exact .inr (.inl (by decide))
  | 2 => cases hn; simp at hk
  | n + 3 => simp [exampleQuery] at hn

example : ∀ f ∈ exampleQuery.filters, Spec.Safe exampleDb exampleQuery.nodes f := by
  intro f hf g hg
  have some_of : ∀ x, (∃ n ∈ exampleQuery.nodes, PElem.var x ∈ [n.1, n.2.1, n.2.2]) → x ∈ f.vars → (g x).isSome = true := by
    rintro x ⟨n, hn, h⟩ hx
    match he : g x with
    | some v => rfl
    | none => exact absurd h ((hg x hx).2 he n hn)
  simp only [exampleQuery, List.mem_cons, List.not_mem_nil, or_false] at hf
  rcases hf with rfl | rfl
  · simp only [some_of 0 ⟨_, by simp [exampleQuery]; exact .inl rfl, by simp⟩ (by simp), some_of 2 ⟨(.var 1, .const 11, .var 2), by simp [exampleQuery], by simp⟩ (by simp), Bool.and_self]
  · exact some_of 1 ⟨(.var 1, .const 11, .var 2), by simp [exampleQuery], by simp⟩ (by simp)

/-! ## Violations -/

/-- `SELECT ?x { ?x 2 ?x }` -/
def repeatedQuery : Query := ⟨[(.var 0, .const 2, .var 0)], [], [0], []⟩

/-- **C85 is violated** by a pattern with the same variable twice: the two positions are not compared.  For all estimates, `?x 2 ?x` has the answer 3 in a database that has only the triple
`1 2 3`. -/
theorem C85_repeated_violated (E : Est) (hE : E.Fair) :
    ∃ p, translate E repeatedQuery = some p ∧ (∃ out, Answers [(1, 2, 3)] repeatedQuery p out) ∧
      (∀ out, Answers [(1, 2, 3)] repeatedQuery p out → (out.flatMap fun r => List.replicate r.1 r.2) = [[some 3]]) ∧ Spec.answers [(1, 2, 3)] repeatedQuery = [] := by
  obtain ⟨p, hp, hf⟩ := translate_final (q := repeatedQuery) hE (by decide) (by decide)
  obtain ⟨p', ok, e, hw, _, _, hl, _⟩ := hf.base
  have hst : p = p' := e
  subst hst
  have key : ∃ k o, p = .scan k o false 0 ∧ scanSlots k o = o.slots := by
    match p, hw, hl with
    | .scan k o f i, hw, _ =>
      have h1 := hw.1
      have h2 : i = 0 := by have := hw.2.1; simp [repeatedQuery] at this; omega
      subst h1 h2
      refine ⟨k, o, rfl, ?_⟩
      have h3 := hw.2.2.1
      have hu : ∀ s < 3, unusedAt repeatedQuery 0 s = false := by decide
      have h4 : ∀ s < 3, s ∈ scanSlots k o := fun s hs => Classical.byContradiction fun h => by
        have := h3 s h hs
        rw [hu s hs] at this; cases this
      have a0 := h4 0 (by omega)
      have a1 := h4 1 (by omega)
      have a2 := h4 2 (by omega)
      cases k <;> cases o <;> first | rfl | simp [scanSlots, Ord.slots, Kind.width] at a0 a1 a2
    | .filter j p, hw, _ => exact absurd hw.1 (by simp [repeatedQuery])
    | .nest l r, hw, hl => exact absurd hl (by
        have : ∀ p, WF repeatedQuery p → 0 < p.leaves.length := leaves_pos
        have h1 := this l hw.1
        have h2 := this r hw.2.1
        simp only [Plan.leaves, List.length_append, repeatedQuery, List.length_cons, List.length_nil]; omega)
    | .merge x l r, hw, hl => exact absurd hl (by
        have : ∀ p, WF repeatedQuery p → 0 < p.leaves.length := leaves_pos
        have h1 := this l hw.1
        have h2 := this r hw.2.1
        simp only [Plan.leaves, List.length_append, repeatedQuery, List.length_cons, List.length_nil]; omega)
    | .hash l r, hw, hl => exact absurd hl (by
        have : ∀ p, WF repeatedQuery p → 0 < p.leaves.length := leaves_pos
        have h1 := this l hw.1
        have h2 := this r hw.2.1
        simp only [Plan.leaves, List.length_append, repeatedQuery, List.length_cons, List.length_nil]; omega)
    | .cart l r, hw, hl => exact absurd hl (by
        have : ∀ p, WF repeatedQuery p → 0 < p.leaves.length := leaves_pos
        have h1 := this l hw.1
        have h2 := this r hw.2.1
        simp only [Plan.leaves, List.length_append, repeatedQuery, List.length_cons, List.length_nil]; omega)
  obtain ⟨k, o, rfl, hs⟩ := key
  have hcols : cols repeatedQuery (setOf (repeatedQuery.projection ++ repeatedQuery.order)) (.scan k o false 0) = [0] := by
    simp only [cols]
    rw [hs]
    cases o <;> decide
  refine ⟨_, hp, ?_, ?_, by decide⟩
  · obtain ⟨rows, h⟩ := exists_scan [(1, 2, 3)] repeatedQuery k o false 0 (cols repeatedQuery (setOf (repeatedQuery.projection ++ repeatedQuery.order)) (.scan k o false 0))
    exact ⟨_, rows, .scan (fun hk => ⟨rfl, by subst hk; cases o <;> cases hs⟩) h, rfl⟩
  · rintro out ⟨rows, h, rfl⟩
    cases h with
    | scan _ h =>
      rw [hcols] at h ⊢
      rw [expand_out fun t => repeatedQuery.projection.map fun x => if [0].contains x then some (look [0] t x) else none]
      have hb := h.bag
      rw [hs] at hb
      have e : ([(1, 2, 3)].filter (matchesSlots (repeatedQuery.node 0) o.slots)).map (fun d => [0].map (slotValue (repeatedQuery.node 0) o.slots d)) = [[3]] := by
        cases o <;> decide
      rw [e] at hb
      have hperm : (expand rows).Perm [[3]] := List.perm_iff_count.2 fun t => by
        rw [count_expand, hb]
      rw [List.perm_singleton.1 hperm]
      decide

/-- **C85 is violated** by a pattern with a constant and two variables that are nowhere else, in any query and for all estimates: the plan has a scan that cannot be started (it throws
an exception).  If there is an answer then each scan of the plan is started. -/
theorem C85_constant_violated (E : Est) (hE : E.Fair) (db : List Triple) (q : Query) (hne : q.nodes ≠ []) (hwidth : q.nodes.length ≤ 64)
    (hnot : ¬ Spec.Tied q) (_hans : Spec.answers db q ≠ []) : ∃ p, translate E q = some p ∧ ∀ out, ¬ Answers db q p out := by
  obtain ⟨p, hp, hf⟩ := translate_final hE hne hwidth
  refine ⟨p, hp, ?_⟩
  rintro out ⟨rows, hx, rfl⟩
  apply hnot
  intro i n hi hc x y hxy hvx hvy
  apply Classical.byContradiction
  intro hno
  rw [not_or] at hno
  obtain ⟨p', ok, rfl, hw, _, hn, hl, _⟩ := hf.base
  have hlt : i < q.nodes.length := (List.getElem?_eq_some_iff.1 hi).1
  have hnode : q.node i = n := by unfold Query.node; rw [hi]; rfl
  have hleaf : i ∈ p'.leaves := (perm_range hn (leaves_lt hw) hl).mem_iff.2 (List.mem_range.2 hlt)
  obtain ⟨hw', hleaves⟩ := stack_spec [] ok _ p' hw fun j hj => List.mem_range.1 hj
  obtain ⟨c, hc⟩ := hc
  subst hnode
  obtain ⟨k, o, hw1, hs⟩ := exec_starts hx hw' i (by rw [hleaves.1]; exact hleaf)
  exact not_starts hw1 hc hxy hvx hvy (by rw [← Bool.not_eq_true, elsewhere_iff]; exact hno.1) (by rw [← Bool.not_eq_true, elsewhere_iff]; exact hno.2) hs

/-- `SELECT ?a { ?a 10 ?b . 5 ?d ?e }` -/
def looseQuery : Query := ⟨[(.var 0, .const 10, .var 1), (.const 5, .var 3, .var 4)], [], [0], []⟩

example : ¬ Spec.Tied looseQuery ∧ Spec.answers exampleDb looseQuery = [[some 5], [some 6], [some 7]] := by
  refine ⟨fun h => ?_, by decide +kernel⟩
  have := h 1 _ rfl ⟨5, by simp⟩ 3 4 (by omega) (by simp) (by simp)
  rcases this with h | h
  all_goals
    have := elsewhere_iff.2 h
    revert this
    decide

/-- **C85 is violated** by groups with more than 64 patterns: there is no plan. -/
theorem C85_wide_violated (E : Est) (q : Query) (h : 64 < q.nodes.length) : translate E q = none := by
  unfold translate translateInt
  rw [if_pos (show q.nodes.length > maxWidth from h)]

/-- **C85 is violated** by groups without patterns: there is no plan, although the group has one solution without values if the conditions hold. -/
theorem C85_empty_violated (E : Est) (db : List Triple) (q : Query) (h : q.nodes = []) (hf : ∀ f ∈ q.filters, f.holds (fun _ => none) = true) :
    translate E q = none ∧ Spec.answers db q = [q.projection.map fun _ => none] := by
  constructor
  · unfold translate translateInt
    rw [h]; rfl
  · unfold Spec.answers
    rw [h]
    have hall : (q.filters.all fun f => f.holds (value [])) = true := List.all_eq_true.2 fun f hm => hf f hm
    simp only [Spec.choices, List.filter_cons, List.filter_nil, hall, Spec.fits, List.all_nil, Bool.and_self, if_true, List.map_cons, List.map_nil]
    rfl

/-- There are such queries. -/
example : ∃ q : Query, 64 < q.nodes.length := ⟨⟨List.replicate 65 (.var 0, .var 1, .var 2), [], [0], []⟩, by decide⟩
example : ∃ q : Query, q.nodes = [] ∧ ∀ f ∈ q.filters, f.holds (fun _ => none) = true := ⟨⟨[], [⟨[], fun _ => true, fun _ => true⟩], [0], []⟩, rfl, by simp⟩

end Trident.Sparql.PlanGen
