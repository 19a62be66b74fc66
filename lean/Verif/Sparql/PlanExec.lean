import Verif.Sparql.PlanBag
import Verif.Sparql.HashPos
import Verif.Props.HashJoin
import Verif.Props.MergeJoin
import Verif.Props.Algebra
/-! # The rows of a plan are its solutions -/
namespace Trident.Sparql.PlanGen
open Analysis (PElem)
open Spec (value fits beside choices)

/-! ## Sets -/

theorem mem_insert {x y : Nat} {l : List Nat} : y ∈ insert x l ↔ y = x ∨ y ∈ l := by
  induction l with
  | nil => simp [insert]
  | cons z l ih =>
    rw [insert]
    split
    · simp
    · split
      · rename_i h; subst h; simp
      · rw [List.mem_cons, ih, List.mem_cons]
        constructor
        · rintro (h | h | h) <;> simp [h]
        · rintro (h | h | h) <;> simp [h]

theorem mem_setOf {y : Nat} {l : List Nat} : y ∈ setOf l ↔ y ∈ l := by
  induction l with
  | nil => simp [setOf]
  | cons z l ih =>
    show y ∈ insert z (setOf l) ↔ _
    rw [mem_insert, ih, List.mem_cons]

theorem mem_joinVars {q : Query} {l r : Plan} {x : Nat} : x ∈ joinVars q l r ↔ x ∈ l.vars q ∧ x ∈ r.vars q := by
  unfold joinVars
  rw [mem_setOf, List.mem_filter]; simp

theorem mem_front {x y : Nat} {l : List Nat} (hx : x ∈ l) : y ∈ front x l ↔ y ∈ l := by
  unfold front
  rw [List.mem_cons, List.mem_filter]
  by_cases h : y = x
  · subst h; simp [hx]
  · simp [h]

/-! ## Columns -/

theorem look_map {names : List Nat} {x : Nat} (h : x ∈ names) (f : Nat → Nat) (w : Tup) : look names (names.map f ++ w) x = f x := by
  unfold look
  induction names with
  | nil => cases h
  | cons y names ih =>
    rw [List.map_cons, List.cons_append, List.zip_cons_cons, List.lookup_cons]
    by_cases hxy : x = y
    · subst hxy; simp
    · rw [show (x == y) = false by simpa using hxy]
      exact ih (by simpa [hxy] using h)

theorem look_map' {names : List Nat} {x : Nat} (h : x ∈ names) (f : Nat → Nat) : look names (names.map f) x = f x := by
  have := look_map h f []
  rwa [List.append_nil] at this

theorem join_rows {A B : List Choice} {L R out : List Row} {cl cr js names : List Nat} {p : Tup → Tup → Bool}
    (hL : (expand L).Perm (A.map fun c => cl.map (val c))) (hR : (expand R).Perm (B.map fun c => cr.map (val c)))
    (hout : (expand out).Perm ((expand R).flatMap fun b => ((expand L).filter fun a => p a b).map (· ++ b)))
    (hjs : ∀ x ∈ js, x ∈ cl ∧ x ∈ cr)
    (hnames : ∀ c ∈ A, ∀ d ∈ B, ∀ x ∈ names, (x ∈ cl → val (c ++ d) x = val c x) ∧ (x ∉ cl → val (c ++ d) x = val d x ∧ x ∈ cr))
    (hfit : ∀ c ∈ A, ∀ d ∈ B, (p (cl.map (val c)) (cr.map (val d)) && js.all fun x => val c x == val d x) = fits (c ++ d)) :
    (expand (output names cl cr (select js cl cr out))).Perm (((A.flatMap fun c => B.map (c ++ ·)).filter fits).map fun c => names.map (val c)) := by
  unfold output select
  rw [expand_map (fun t => names.map fun x => if cl.contains x then look cl t x else look cr (t.drop cl.length) x),
    expand_filter (fun t => js.all fun x => look cl t x == look cr (t.drop cl.length) x)]
  have h1 : (expand out).Perm (B.flatMap fun d => (A.filter fun c => p (cl.map (val c)) (cr.map (val d))).map fun c => cl.map (val c) ++ cr.map (val d)) := by
    refine hout.trans ?_
    refine (flatMap_perm (g := fun b => ((A.map fun c => cl.map (val c)).filter fun a => p a b).map (· ++ b)) fun b _ => (hL.filter _).map _).trans ?_
    refine (hR.flatMap_right _).trans (.of_eq ?_)
    rw [List.flatMap_map]
    refine congrArg (fun f => B.flatMap f) (funext fun d => ?_)
    rw [List.filter_map, List.map_map]
    rfl
  refine ((h1.filter _).map _).trans ?_
  refine List.Perm.trans ?_ ((((flatMap_comm_perm A B fun c d => c ++ d).symm).filter _).map _)
  rw [List.filter_flatMap, List.map_flatMap, List.filter_flatMap, List.map_flatMap]
  refine flatMap_perm fun d hd => .of_eq ?_
  rw [List.filter_map, List.map_map, List.filter_map, List.map_map, List.filter_filter]
  have hlen : ∀ c : Choice, (cl.map (val c) ++ cr.map (val d)).drop cl.length = cr.map (val d) := fun c => by
    rw [List.drop_append, List.drop_of_length_le (by simp)]; simp
  have hfil : (A.filter fun c => ((fun t => js.all fun x => look cl t x == look cr (t.drop cl.length) x) ∘ fun c => cl.map (val c) ++ cr.map (val d)) c &&
      p (cl.map (val c)) (cr.map (val d))) = A.filter (fits ∘ fun c => c ++ d) := by
    refine List.filter_congr fun c hc => ?_
    show (_ && _) = fits (c ++ d)
    rw [← hfit c hc d hd, Bool.and_comm]
    congr 1
    simp only [Function.comp]
    rw [hlen]
    rw [Bool.eq_iff_iff, List.all_eq_true, List.all_eq_true]
    have hh : ∀ x ∈ js, (look cl (cl.map (val c) ++ cr.map (val d)) x == look cr (cr.map (val d)) x) = (val c x == val d x) := fun x hx => by
      rw [look_map (hjs x hx).1, look_map' (hjs x hx).2]
    exact ⟨fun h x hx => (hh x hx) ▸ h x hx, fun h x hx => (hh x hx).symm ▸ h x hx⟩
  rw [hfil]
  refine List.map_congr_left fun c hc => ?_
  have hc := (List.mem_filter.1 hc).1
  simp only [Function.comp]
  rw [hlen]
  refine List.map_congr_left fun x hx => ?_
  obtain ⟨n1, n2⟩ := hnames c hc d hd x hx
  by_cases hcl : x ∈ cl
  · rw [if_pos (by simpa using hcl), n1 hcl, look_map hcl]
  · rw [if_neg (by simpa using hcl), (n2 hcl).1, look_map' (n2 hcl).2]

theorem pick_perm {A : List Choice} {rows : List Row} {names cs : List Nat} (h : (expand rows).Perm (A.map fun c => names.map (val c))) (hs : ∀ x ∈ cs, x ∈ names) :
    (expand (pick names cs rows)).Perm (A.map fun c => cs.map (val c)) := by
  unfold pick
  rw [expand_map fun t => cs.map (look names t)]
  refine (h.map _).trans (.of_eq ?_)
  rw [List.map_map]
  exact List.map_congr_left fun c _ => List.map_congr_left fun x hx => look_map' (hs x hx) _

/-! ## Solutions -/

/-- The patterns of a plan. -/
def Plan.leaves : Plan → List Nat
  | .scan _ _ _ i => [i]
  | .filter _ p => p.leaves
  | .nest l r => l.leaves ++ r.leaves
  | .merge _ l r => l.leaves ++ r.leaves
  | .hash l r => l.leaves ++ r.leaves
  | .cart l r => l.leaves ++ r.leaves

/-- The solutions of two plans that fit. -/
def both (a b : List Choice) : List Choice := (a.flatMap fun c => b.map (c ++ ·)).filter fits

/-- The solutions of a plan. -/
def sols (db : List Triple) (q : Query) : Plan → List Choice
  | .scan _ _ _ i => (db.map (beside (q.node i))).filter fits
  | .filter j p => (sols db q p).filter fun c => (q.filt j).holds (value c)
  | .nest l r => both (sols db q l) (sols db q r)
  | .merge _ l r => both (sols db q l) (sols db q r)
  | .hash l r => both (sols db q l) (sols db q r)
  | .cart l r => both (sols db q l) (sols db q r)

/-- The ordering of a plan. -/
def Plan.ordering (q : Query) : Plan → Option Nat
  | .scan k o free i => scanOrdering q k o free i
  | .filter _ p => p.ordering q
  | .nest l _ => l.ordering q
  | .merge x _ _ => some x
  | .hash _ _ => none
  | .cart _ _ => none

/-- The plans that are made. -/
def WF (q : Query) : Plan → Prop
  | .scan k o free i => free = false ∧ i < q.nodes.length ∧ (∀ s, s ∉ scanSlots k o → s < 3 → unusedAt q i s = true) ∧
      ((unusedAt q i 0).toNat + (unusedAt q i 1).toNat + (unusedAt q i 2).toNat ≥ 2 → k = .fully)
  | .filter j p => j < q.filters.length ∧ WF q p
  | .nest l r => WF q l ∧ WF q r ∧ ∀ i ∈ l.leaves, i ∉ r.leaves
  | .merge x l r => WF q l ∧ WF q r ∧ (∀ i ∈ l.leaves, i ∉ r.leaves) ∧ l.ordering q = some x ∧ r.ordering q = some x
  | .hash l r => WF q l ∧ WF q r ∧ (∀ i ∈ l.leaves, i ∉ r.leaves) ∧ joinVars q l r ≠ []
  | .cart l r => WF q l ∧ WF q r ∧ (∀ i ∈ l.leaves, i ∉ r.leaves) ∧ joinVars q l r = []

/-- The projected variables are used outside of a pattern. -/
def Used (q : Query) (proj : List Nat) (p : Plan) : Prop := ∀ x ∈ proj, ∀ i ∈ p.leaves, x ∈ (q.node i).vars → used q i x = true

theorem mem_vars_leaf {q : Query} {p : Plan} {x : Nat} : x ∈ p.vars q ↔ ∃ i ∈ p.leaves, x ∈ (q.node i).vars := by
  induction p with
  | scan k o f i => simp [Plan.vars, Plan.leaves]
  | filter j p ih => simpa [Plan.vars, Plan.leaves] using ih
  | nest l r ih1 ih2 => simp [Plan.vars, Plan.leaves, ih1, ih2, or_and_right, exists_or]
  | merge x l r ih1 ih2 => simp [Plan.vars, Plan.leaves, ih1, ih2, or_and_right, exists_or]
  | hash l r ih1 ih2 => simp [Plan.vars, Plan.leaves, ih1, ih2, or_and_right, exists_or]
  | cart l r ih1 ih2 => simp [Plan.vars, Plan.leaves, ih1, ih2, or_and_right, exists_or]

theorem used_node {q : Query} {i j x : Nat} (hij : j ≠ i) (hj : j < q.nodes.length) (h : x ∈ (q.node j).vars) : used q i x = true := by
  unfold used
  rw [Bool.or_eq_true]
  refine Or.inr (List.any_eq_true.2 ⟨j, List.mem_range.2 hj, ?_⟩)
  simp [hij, h]

theorem used_filter {q : Query} {i j x : Nat} (hj : j < q.filters.length) (h : x ∈ (q.filt j).vars) : used q i x = true := by
  have : q.filters.any (fun f => f.vars.contains x) = true := by
    refine List.any_eq_true.2 ⟨q.filt j, ?_, by simpa using h⟩
    unfold Query.filt
    rw [List.getElem?_eq_getElem hj]
    exact List.getElem_mem hj
  unfold used
  rw [this]; simp

theorem leaves_lt {q : Query} {p : Plan} (h : WF q p) : ∀ i ∈ p.leaves, i < q.nodes.length := by
  induction p with
  | scan k o f i => intro j hj; rw [Plan.leaves, List.mem_singleton] at hj; subst hj; exact h.2.1
  | filter j p ih => exact ih h.2
  | nest l r ih1 ih2 => intro i hi; exact (List.mem_append.1 hi).elim (ih1 h.1 i) (ih2 h.2.1 i)
  | merge x l r ih1 ih2 => intro i hi; exact (List.mem_append.1 hi).elim (ih1 h.1 i) (ih2 h.2.1 i)
  | hash l r ih1 ih2 => intro i hi; exact (List.mem_append.1 hi).elim (ih1 h.1 i) (ih2 h.2.1 i)
  | cart l r ih1 ih2 => intro i hi; exact (List.mem_append.1 hi).elim (ih1 h.1 i) (ih2 h.2.1 i)

theorem leaves_pos {q : Query} : ∀ p : Plan, WF q p → 0 < p.leaves.length := by
  intro p
  induction p with
  | scan k o f i => intro _; exact Nat.one_pos
  | filter j p ih => intro h; exact ih h.2
  | nest l r ih1 ih2 => intro h; have := ih1 h.1; simp only [Plan.leaves, List.length_append]; omega
  | merge x l r ih1 ih2 => intro h; have := ih1 h.1; simp only [Plan.leaves, List.length_append]; omega
  | hash l r ih1 ih2 => intro h; have := ih1 h.1; simp only [Plan.leaves, List.length_append]; omega
  | cart l r ih1 ih2 => intro h; have := ih1 h.1; simp only [Plan.leaves, List.length_append]; omega

theorem used_join {q : Query} {proj : List Nat} {l r : Plan} (hl : WF q l) (hr : WF q r) (hd : ∀ i ∈ l.leaves, i ∉ r.leaves)
    (hU : ∀ x ∈ proj, ∀ i ∈ l.leaves ++ r.leaves, x ∈ (q.node i).vars → used q i x = true) :
    Used q (proj ++ joinVars q l r) l ∧ Used q (proj ++ joinVars q l r) r := by
  constructor
  · intro x hx i hi hv
    rcases List.mem_append.1 hx with h | h
    · exact hU x h i (List.mem_append_left _ hi) hv
    · obtain ⟨j, hj, hjv⟩ := mem_vars_leaf.1 (mem_joinVars.1 h).2
      exact used_node (fun (e : j = i) => hd i hi (e ▸ hj)) (leaves_lt hr j hj) hjv
  · intro x hx i hi hv
    rcases List.mem_append.1 hx with h | h
    · exact hU x h i (List.mem_append_right _ hi) hv
    · obtain ⟨j, hj, hjv⟩ := mem_vars_leaf.1 (mem_joinVars.1 h).1
      exact used_node (fun (e : j = i) => hd j hj (e ▸ hi)) (leaves_lt hl j hj) hjv

theorem mem_nodeVars {n : Node} {x : Nat} : x ∈ n.vars ↔ ∃ s, s < 3 ∧ n.varAt s = some x := by
  unfold Node.vars
  rw [List.mem_filterMap]
  constructor
  · rintro ⟨s, hs, h⟩
    refine ⟨s, ?_, h⟩
    simp at hs; omega
  · rintro ⟨s, hs, h⟩
    refine ⟨s, ?_, h⟩
    simp; omega

theorem slots_lt {k : Kind} {o : Ord} {s : Nat} (h : s ∈ scanSlots k o) : s < 3 := by
  have := List.mem_of_mem_take h
  cases o <;> simp [Ord.slots] at this <;> omega

theorem cols_join {q : Query} {proj cl cr : List Nat} {l r : Plan} (hl : ∀ x, x ∈ cl ↔ x ∈ proj ++ joinVars q l r ∧ x ∈ l.vars q)
    (hr : ∀ x, x ∈ cr ↔ x ∈ proj ++ joinVars q l r ∧ x ∈ r.vars q) (x : Nat) :
    x ∈ setOf ((cl ++ cr).filter proj.contains) ↔ x ∈ proj ∧ x ∈ l.vars q ++ r.vars q := by
  rw [mem_setOf, List.mem_filter, List.mem_append, List.mem_append, hl, hr, List.mem_append]
  simp only [List.contains_iff_mem]
  constructor
  · rintro ⟨⟨_, h⟩ | ⟨_, h⟩, hp⟩
    · exact ⟨hp, Or.inl h⟩
    · exact ⟨hp, Or.inr h⟩
  · rintro ⟨hp, h | h⟩
    · exact ⟨Or.inl ⟨Or.inl hp, h⟩, hp⟩
    · exact ⟨Or.inr ⟨Or.inl hp, h⟩, hp⟩

/-- A plan has a register for each projected variable that it has. -/
theorem mem_cols {q : Query} {p : Plan} : ∀ {proj : List Nat}, WF q p → Used q proj p → ∀ x, x ∈ cols q proj p ↔ x ∈ proj ∧ x ∈ p.vars q := by
  induction p with
  | scan k o f i =>
    intro proj hw hU x
    simp only [cols, Plan.vars]
    rw [mem_setOf, List.mem_filter, List.mem_filterMap]
    simp only [List.contains_iff_mem]
    constructor
    · rintro ⟨⟨s, hs, hv⟩, hp⟩
      exact ⟨hp, mem_nodeVars.2 ⟨s, slots_lt hs, hv⟩⟩
    · rintro ⟨hp, hv⟩
      obtain ⟨s, hs, hsv⟩ := mem_nodeVars.1 hv
      refine ⟨⟨s, ?_, hsv⟩, hp⟩
      by_cases hm : s ∈ scanSlots k o
      · exact hm
      · have h1 := hw.2.2.1 s hm hs
        unfold unusedAt at h1
        rw [hsv] at h1
        have h2 := hU x hp i (by simp [Plan.leaves]) hv
        simp [h2] at h1
  | filter j p ih =>
    intro proj hw hU x
    have hU' : Used q (proj ++ (q.filt j).vars) p := by
      intro y hy i hi hv
      rcases List.mem_append.1 hy with h | h
      · exact hU y h i hi hv
      · exact used_filter hw.1 h
    simp only [cols, Plan.vars]
    rw [List.mem_filter, ih hw.2 hU', List.mem_append]
    simp only [Bool.not_eq_true', Bool.and_eq_false_iff, Bool.not_eq_false', List.contains_iff_mem]
    constructor
    · rintro ⟨⟨h1 | h1, h2⟩, h3⟩
      · exact ⟨h1, h2⟩
      · rcases h3 with h3 | h3
        · simp [h1] at h3
        · exact ⟨h3, h2⟩
    · rintro ⟨h1, h2⟩
      exact ⟨⟨Or.inl h1, h2⟩, Or.inr h1⟩
  | nest l r ih1 ih2 =>
    intro proj hw hU
    obtain ⟨u1, u2⟩ := used_join hw.1 hw.2.1 hw.2.2 hU
    exact cols_join (ih1 hw.1 u1) (ih2 hw.2.1 u2)
  | merge y l r ih1 ih2 =>
    intro proj hw hU
    obtain ⟨u1, u2⟩ := used_join hw.1 hw.2.1 hw.2.2.1 hU
    exact cols_join (ih1 hw.1 u1) (ih2 hw.2.1 u2)
  | hash l r ih1 ih2 =>
    intro proj hw hU
    obtain ⟨u1, u2⟩ := used_join hw.1 hw.2.1 hw.2.2.1 hU
    exact cols_join (ih1 hw.1 u1) (ih2 hw.2.1 u2)
  | cart l r ih1 ih2 =>
    intro proj hw hU x
    have e1 := ih1 (proj := proj) hw.1 (fun x hx i hi => hU x hx i (List.mem_append_left _ hi))
    have e2 := ih2 (proj := proj) hw.2.1 (fun x hx i hi => hU x hx i (List.mem_append_right _ hi))
    simp only [cols, Plan.vars]
    rw [mem_setOf, List.mem_filter, List.mem_append, List.mem_append, e1, e2]
    simp only [List.contains_iff_mem]
    constructor
    · rintro ⟨⟨_, h⟩ | ⟨_, h⟩, hp⟩
      · exact ⟨hp, Or.inl h⟩
      · exact ⟨hp, Or.inr h⟩
    · rintro ⟨hp, h | h⟩
      · exact ⟨Or.inl ⟨hp, h⟩, hp⟩
      · exact ⟨Or.inr ⟨hp, h⟩, hp⟩

theorem ordering_vars {q : Query} {p : Plan} (hw : WF q p) : ∀ {x : Nat}, p.ordering q = some x → x ∈ p.vars q := by
  induction p with
  | scan k o f i =>
    intro x h
    simp only [Plan.ordering, scanOrdering] at h
    split at h
    · cases h
    · obtain ⟨s, hs, hv⟩ := List.exists_of_findSome?_eq_some h
      exact mem_nodeVars.2 ⟨s, slots_lt hs, hv⟩
  | filter j p ih => intro x h; exact ih hw.2 h
  | nest l r ih1 ih2 => intro x h; exact List.mem_append_left _ (ih1 hw.1 h)
  | merge y l r ih1 ih2 => intro x h; cases h; exact List.mem_append_left _ (ih1 hw.1 hw.2.2.2.1)
  | hash l r ih1 ih2 => intro x h; cases h
  | cart l r ih1 ih2 => intro x h; cases h

theorem cvars_beside (n : Node) (t : Triple) : cvars (beside n t) = n.vars := by
  obtain ⟨a, b, c⟩ := n
  cases a <;> cases b <;> cases c <;> rfl

theorem mem_both {a b : List Choice} {c : Choice} (h : c ∈ both a b) : fits c = true ∧ ∃ x ∈ a, ∃ y ∈ b, c = x ++ y := by
  unfold both at h
  rw [List.mem_filter, List.mem_flatMap] at h
  obtain ⟨⟨x, hx, hy⟩, hf⟩ := h
  obtain ⟨y, hyb, rfl⟩ := List.mem_map.1 hy
  exact ⟨hf, x, hx, y, hyb, rfl⟩

theorem mem_sols {db : List Triple} {q : Query} {p : Plan} : ∀ {c : Choice}, c ∈ sols db q p → fits c = true ∧ cvars c = p.vars q := by
  have hboth : ∀ {l r : Plan} {c : Choice}, (∀ {c}, c ∈ sols db q l → fits c = true ∧ cvars c = l.vars q) →
      (∀ {c}, c ∈ sols db q r → fits c = true ∧ cvars c = r.vars q) → c ∈ both (sols db q l) (sols db q r) → fits c = true ∧ cvars c = l.vars q ++ r.vars q := by
    intro l r c h1 h2 hc
    obtain ⟨hf, x, hx, y, hy, rfl⟩ := mem_both hc
    exact ⟨hf, by rw [cvars_append, (h1 hx).2, (h2 hy).2]⟩
  induction p with
  | scan k o f i =>
    intro c hc
    simp only [sols, List.mem_filter, List.mem_map] at hc
    obtain ⟨⟨t, _, rfl⟩, hf⟩ := hc
    exact ⟨hf, cvars_beside _ _⟩
  | filter j p ih => intro c hc; exact ih (List.mem_filter.1 hc).1
  | nest l r ih1 ih2 => intro c hc; exact hboth ih1 ih2 hc
  | merge y l r ih1 ih2 => intro c hc; exact hboth ih1 ih2 hc
  | hash l r ih1 ih2 => intro c hc; exact hboth ih1 ih2 hc
  | cart l r ih1 ih2 => intro c hc; exact hboth ih1 ih2 hc

theorem val_append_left {c d : Choice} {x : Nat} (h : x ∈ cvars c) : val (c ++ d) x = val c x := by
  rw [val, value_append, value_eq_val h]; rfl

theorem val_append_right {c d : Choice} {x : Nat} (h : x ∉ cvars c) : val (c ++ d) x = val d x := by
  rw [val, value_append, value_none h]; rfl

end Trident.Sparql.PlanGen
