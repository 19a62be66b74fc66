import Verif.Sparql.UnionQuery
import Verif.Props.PlanGen
import Verif.Props.Union
/-!
# Lemmas about queries with UNION
-/
namespace Trident.Sparql.PlanGen
open Analysis (PElem)
open Spec (value fits In Everywhere)

variable {E : Est} {U : UEst E}

/-! ## Plans of a group -/

/-- All plans of the chain are plans of the whole group. -/
theorem translateInt_final (hE : E.Fair) {q : Query} (hn : q.nodes ≠ []) (hw : q.nodes.length ≤ maxWidth) :
    ∃ a l, translateInt E q = some (a :: l) ∧ ∀ b ∈ a :: l, Final q b.plan := by
  have hpos : 0 < q.nodes.length := List.length_pos_iff.2 hn
  obtain ⟨h1, h2, h3, h4⟩ := table_spec hE q (q.nodes.length - 1) (by omega)
  have hlast : ∃ lv, (table E q (q.nodes.length - 1)).getLast? = some lv ∧ lv = (table E q (q.nodes.length - 1)).getD (q.nodes.length - 1) [] := by
    rw [List.getLast?_eq_getElem?, h1]
    simp only [Nat.add_sub_cancel]
    rw [List.getD_eq_getElem?_getD, List.getElem?_eq_getElem (by omega)]
    exact ⟨_, rfl, rfl⟩
  obtain ⟨lv, e1, e2⟩ := hlast
  have hlv : lv ≠ [] := e2 ▸ h4
  match hlv' : lv, hlv with
  | pr :: prs, _ =>
    have gq : GoodQ q q.nodes.length pr := by
      have := h2 (q.nodes.length - 1) pr (by rw [← e2]; simp)
      rwa [show q.nodes.length - 1 + 1 = q.nodes.length by omega] at this
    match hpl : pr.plans, gq.ne with
    | a :: l, _ =>
      have ga : ∀ b ∈ a :: l, GoodP q pr.rel q.nodes.length b := fun b hb => gq.plans b (hpl ▸ hb)
      have hti : translateInt E q = if addRemaining q a.plan = a.plan then some (a :: l) else some [{ a with plan := addRemaining q a.plan }] := by
        unfold translateInt
        rw [if_neg (by omega)]
        match hqn : q.nodes, hn with
        | n :: ns, _ =>
          simp only
          rw [← hqn, e1]
          simp only [Option.bind_some, List.head?_cons, hpl]
      have hfin : ∀ b, b ∈ a :: l → Final q (addRemaining q b.plan) := by
        intro b hb
        have gb := ga b hb
        refine ⟨b.plan, _, addRemaining_eq q b.plan, gb.wf, gb.sub, gb.nodup, gb.len, ?_⟩
        intro j _
        by_cases hj : j ∈ b.plan.filters
        · exact Or.inl hj
        · right; simpa using hj
      by_cases heq : addRemaining q a.plan = a.plan
      · rw [if_pos heq] at hti
        have hall : ∀ j < q.filters.length, j ∈ a.plan.filters := by
          intro j hj
          have hlen := (stack_spec [] (fun j => !a.plan.filters.contains j) (List.range q.filters.length) a.plan (ga a (by simp)).wf fun j hj => List.mem_range.1 hj).2.2.1
          rw [← addRemaining_eq, heq] at hlen
          have hz : (List.range q.filters.length).countP (fun j => !a.plan.filters.contains j) = 0 := by omega
          rw [List.countP_eq_zero] at hz
          have := hz j (List.mem_range.2 hj)
          simpa using this
        refine ⟨a, l, hti, ?_⟩
        intro b hb
        have gb := ga b hb
        refine ⟨b.plan, fun _ => false, ?_, gb.wf, gb.sub, gb.nodup, gb.len, fun j hj => Or.inl ?_⟩
        · exact (stack_false b.plan _).symm
        · rw [gb.pushed j hj]
          obtain ⟨i, hi, hv⟩ := ((ga a (by simp)).pushed j hj).1 (hall j hj)
          exact ⟨i, (gb.rel i).1 (((ga a (by simp)).rel i).2 hi), hv⟩
      · rw [if_neg heq] at hti
        refine ⟨_, [], hti, ?_⟩
        intro b hb
        rw [List.mem_singleton] at hb
        subst hb
        exact hfin a (by simp)

theorem cheapest_mem : ∀ {l : List (Ann E)} {b : Ann E}, cheapest E l = some b → b ∈ l := by
  intro l b h
  match l, h with
  | a :: l, h =>
    simp only [cheapest, Option.some.injEq] at h
    subst h
    have key : ∀ (l : List (Ann E)) (a : Ann E), l.foldl (fun bp a => if !E.ge a.cost bp.cost then a else bp) a ∈ a :: l := by
      intro l
      induction l with
      | nil => intro a; simp
      | cons c l ih =>
        intro a
        rw [List.foldl_cons]
        have := ih (if !E.ge c.cost a.cost then c else a)
        rcases List.mem_cons.1 this with h | h
        · rw [h]; split <;> simp
        · exact List.mem_cons_of_mem _ (List.mem_cons_of_mem _ h)
    exact key l a

theorem cheapest_some (a : Ann E) (l : List (Ann E)) : ∃ b, cheapest E (a :: l) = some b := ⟨_, rfl⟩

theorem allOf_some {α β : Type} {f : α → Option β} : ∀ {l : List α}, (∀ a ∈ l, ∃ b, f a = some b) → ∃ bs, allOf f l = some bs := by
  intro l
  induction l with
  | nil => intro _; exact ⟨[], rfl⟩
  | cons a l ih =>
    intro h
    obtain ⟨b, hb⟩ := h a (by simp)
    obtain ⟨bs, hbs⟩ := ih fun c hc => h c (List.mem_cons_of_mem _ hc)
    exact ⟨b :: bs, by simp only [allOf, hb, hbs]⟩

theorem allOf_forall {α β : Type} {f : α → Option β} : ∀ {l : List α} {bs : List β}, allOf f l = some bs → bs.length = l.length ∧ ∀ (i : Nat) a b, l[i]? = some a → bs[i]? = some b → f a = some b := by
  intro l
  induction l with
  | nil => intro bs h; cases h; exact ⟨rfl, fun i a b h => by simp at h⟩
  | cons a l ih =>
    intro bs h
    simp only [allOf] at h
    match ha : f a, hl : allOf f l with
    | some b, some bs' =>
      rw [ha, hl] at h
      cases h
      obtain ⟨h1, h2⟩ := ih hl
      refine ⟨by simp [h1], ?_⟩
      intro i c d hc hd
      match i with
      | 0 => simp at hc hd; subst hc hd; exact ha
      | i + 1 => simp at hc hd; exact h2 i c d hc hd
    | none, _ => rw [ha] at h; simp at h
    | some _, none => rw [ha, hl] at h; simp at h

theorem chain_parts : ∀ (ps : List (Nat × Plan)) (l r : Nat × Plan), (chain l r ps).parts = l :: r :: ps := by
  intro ps
  induction ps with
  | nil => intro l r; rfl
  | cons p ps ih => intro l r; rw [chain, UTree.parts, ih]

theorem buildTree_parts {ps : List (Nat × Plan)} (h : ps ≠ []) : ∃ t, buildTree ps = some t ∧ t.parts = ps := by
  match ps, h with
  | [p], _ => exact ⟨_, rfl, rfl⟩
  | p :: r :: ps, _ => exact ⟨_, rfl, chain_parts ps p r⟩

/-! ## Rows of the alternatives -/

theorem mem_node_vars {n : Node} {x : Nat} : x ∈ n.vars ↔ PElem.var x ∈ [n.1, n.2.1, n.2.2] := by
  obtain ⟨a, b, c⟩ := n
  cases a <;> cases b <;> cases c <;> simp [Node.vars, Node.varAt, Node.slot]

/-- The variables of the plan of a whole group are those of its patterns. -/
theorem final_vars {q : Query} {p : Plan} (h : Final q p) (x : Nat) : x ∈ p.vars q ↔ In x q.nodes := by
  obtain ⟨p', ok, rfl, hw, hs, hn, hl, _⟩ := h.base
  have hp := (perm_range hn (leaves_lt hw) hl).map q.node
  rw [map_node] at hp
  have hv : ∀ (js : List Nat) (p : Plan), x ∈ (stack ok p js).vars q ↔ x ∈ p.vars q := by
    intro js
    induction js with
    | nil => intro p; exact Iff.rfl
    | cons j js ih =>
      intro p
      have hs : stack ok p (j :: js) = stack ok (if ok j then .filter j p else p) js := rfl
      rw [hs, ih]
      split <;> exact Iff.rfl
  rw [hv, mem_vars_leaf]
  constructor
  · rintro ⟨i, hi, h⟩
    exact ⟨q.node i, hp.mem_iff.1 (List.mem_map_of_mem hi), mem_node_vars.1 h⟩
  · rintro ⟨n, hn, h⟩
    obtain ⟨i, hi, rfl⟩ := List.mem_map.1 (hp.mem_iff.2 hn)
    exact ⟨i, hi, mem_node_vars.2 h⟩

theorem sols_values {db : List Triple} {q : Query} (hq : Fine q) {p : Plan} (h : Final q p) (xs : List Nat) :
    ((sols db q p).map fun c => xs.map (value c)).Perm ((Spec.solutions db (q.nodes, q.filters)).map fun c => xs.map (value c)) := by
  obtain ⟨p', ok, rfl, hw, hs, hn, hl, hall⟩ := h.base
  exact plan_values hq hw hs hn hl (fun j hj => List.mem_range.1 hj) (fun j hj => (hall j hj).imp id fun h => ⟨List.mem_range.2 hj, h⟩) xs

/-- The variables outside of an alternative that are kept. -/
def kept (u : UQuery) : List Nat := u.projection ++ u.order ++ u.filters.flatMap (·.vars)

theorem part_used {u : UQuery} {proj : List Nat} (h : ∀ x ∈ proj, x ∈ kept u) (i : Nat) (p : Plan) : Used (part u i) proj p := by
  intro x hx k _ _
  have := h x hx
  unfold used part
  simp only [kept, List.mem_append] at this
  rcases this with (h | h) | h
  · simp [h]
  · simp [h]
  · simp only [Bool.or_eq_true, List.contains_eq_mem, decide_eq_true_eq]
    exact .inl (.inl (.inr (List.mem_append_left _ (List.mem_append_right _ h))))

theorem lookup_zip_map (b : List (Nat × Nat)) (f : Nat → Nat) (v : Nat) : ((b.map (·.1)).zip (b.map fun e => f e.2)).lookup v = (b.lookup v).map f := by
  induction b with
  | nil => rfl
  | cons e b ih =>
    obtain ⟨k, w⟩ := e
    simp only [List.map_cons, List.zip_cons_cons, List.lookup_cons]
    split
    · rfl
    · exact ih

theorem lookup_isSome_iff (b : List (Nat × Nat)) (v : Nat) : (b.lookup v).isSome = true ↔ v ∈ b.map (·.1) := by
  induction b with
  | nil => simp
  | cons e b ih =>
    obtain ⟨k, w⟩ := e
    simp only [List.lookup_cons, List.map_cons, List.mem_cons]
    by_cases h : v = k
    · simp [h]
    · rw [show (v == k) = false by simpa using h]
      simp only [h, false_or]
      exact ih

/-- The registers of a row have the values of the row. -/
theorem holds_value {up : Union.Part} {names : List Nat} {rows : List Row} (h : Holds up names rows) (v : Nat) :
    up.rows.map (fun r => (r.1, (up.binds.lookup v).map r.2)) = rows.map fun r => (r.1, if v ∈ names then some (look names r.2 v) else none) := by
  obtain ⟨h1, h2⟩ := h
  subst h1
  rw [← h2, List.map_map]
  refine List.map_congr_left fun r _ => ?_
  simp only [Function.comp, look, lookup_zip_map]
  congr 1
  by_cases hv : v ∈ up.binds.map (·.1)
  · rw [if_pos hv]
    obtain ⟨y, hy⟩ := Option.isSome_iff_exists.1 ((lookup_isSome_iff _ _).2 hv)
    rw [hy]; rfl
  · rw [if_neg hv]
    have : up.binds.lookup v = none := by
      rw [← Option.not_isSome_iff_eq_none, lookup_isSome_iff]; exact hv
    rw [this]; rfl

/-- The rows of a part, as they are in the union. -/
theorem holds_rows {up : Union.Part} {names : List Nat} {rows : List Row} (h : Holds up names rows) (null : Nat) (vars : List Nat) :
    (up.rows.map fun r => (r.1, fun v => (up.binds.lookup v).map r.2)).map (Spec.row null vars) =
      rows.map fun r => (r.1, vars.map fun v => (if v ∈ names then some (look names r.2 v) else none).getD null) := by
  have h' := h
  obtain ⟨h1, h2⟩ := h
  subst h1
  rw [← h2, List.map_map, List.map_map]
  refine List.map_congr_left fun r hr => ?_
  simp only [Function.comp, Spec.row]
  congr 1
  refine List.map_congr_left fun v _ => ?_
  congr 1
  simp only [look, lookup_zip_map]
  by_cases hv : v ∈ up.binds.map (·.1)
  · rw [if_pos hv]
    obtain ⟨y, hy⟩ := Option.isSome_iff_exists.1 ((lookup_isSome_iff _ _).2 hv)
    rw [hy]; rfl
  · rw [if_neg hv]
    have : up.binds.lookup v = none := by
      rw [← Option.not_isSome_iff_eq_none, lookup_isSome_iff]; exact hv
    rw [this]; rfl

/-! ## Rows of the union -/

/-- The number that stands for a variable without value. -/
def filled (c : Choice) (x : Nat) : Nat := (value c x).getD Union.unbound

/-- What is known about a union plan. -/
structure UGood (u : UQuery) (ps : List (Nat × Plan)) : Prop where
  final : ∀ a ∈ ps, Final (part u a.1) a.2
  index : ps.map (·.1) = List.range u.parts.length

/-- The solutions of all plans. -/
def allSols (db : List Triple) (u : UQuery) (ps : List (Nat × Plan)) : List Choice := ps.flatMap fun a => sols db (part u a.1) a.2

theorem part_rows {db : List Triple} {u : UQuery} (hdb : ∀ t ∈ db, t.1 < 2 ^ 64 ∧ t.2.1 < 2 ^ 64 ∧ t.2.2 < 2 ^ 64) {proj : List Nat} (hp : ∀ x ∈ proj, x ∈ kept u) {i : Nat} (hq : Fine (part u i)) {p : Plan}
    (hf : Final (part u i) p) {rows : List Row} (h : Exec db (part u i) proj p rows) {vars : List Nat} (hv : ∀ x ∈ vars, x ∈ proj) :
    (∀ r ∈ rows, r.1 ≠ 0) ∧ (expand (rows.map fun r => (r.1, vars.map fun v => (if v ∈ cols (part u i) proj p then some (look (cols (part u i) proj p) r.2 v) else none).getD Union.unbound))).Perm
      ((sols db (part u i) p).map fun c => vars.map (filled c)) := by
  obtain ⟨hw, _, _⟩ := final_wf hf
  have hU := part_used hp i p
  have hr := exec_rows hq hdb h hw hU
  refine ⟨hr.pos, ?_⟩
  rw [expand_map fun t => vars.map fun v => (if v ∈ cols (part u i) proj p then some (look (cols (part u i) proj p) t v) else none).getD Union.unbound]
  refine (hr.perm.map _).trans ?_
  rw [List.map_map]
  refine List.Perm.of_eq (List.map_congr_left fun c hc => List.map_congr_left fun x hx => ?_)
  have hcol := mem_cols hw hU x
  unfold filled
  by_cases hm : x ∈ cols (part u i) proj p
  · rw [if_pos hm, look_map' hm, value_eq_val ((mem_sols hc).2 ▸ (hcol.1 hm).2)]
  · rw [if_neg hm, value_none fun h => hm (hcol.2 ⟨hv x hx, (mem_sols hc).2 ▸ h⟩)]

theorem parts_rows {db : List Triple} {u : UQuery} (hdb : ∀ t ∈ db, t.1 < 2 ^ 64 ∧ t.2.1 < 2 ^ 64 ∧ t.2.2 < 2 ^ 64) {proj : List Nat} (hp : ∀ x ∈ proj, x ∈ kept u) (hq : ∀ i, Fine (part u i))
    {vars : List Nat} (hv : ∀ x ∈ vars, x ∈ proj) {ps : List (Nat × Plan)} {ups : List Union.Part} (h : PartsOn (ScanRows db) u proj ps ups) (hf : ∀ a ∈ ps, Final (part u a.1) a.2) :
    let rows := (Spec.union (ups.map fun p => p.rows.map fun r => (r.1, fun v => (p.binds.lookup v).map r.2))).map (Spec.row Union.unbound vars)
    (∀ r ∈ rows, r.1 ≠ 0) ∧ (expand rows).Perm ((allSols db u ps).map fun c => vars.map (filled c)) := by
  induction h with
  | nil => exact ⟨by intro r hr; simp [Spec.union] at hr, .refl _⟩
  | @cons a up rows l ups h1 h2 _ ih =>
    obtain ⟨i1, i2⟩ := ih fun b hb => hf b (List.mem_cons_of_mem _ hb)
    obtain ⟨j1, j2⟩ := part_rows hdb hp (hq a.1) (hf a (by simp)) h1 hv
    simp only [Spec.union, List.map_cons, List.flatten_cons, List.map_append, holds_rows h2, allSols, List.flatMap_cons] at i1 i2 ⊢
    refine ⟨?_, ?_⟩
    · intro r hr
      rcases List.mem_append.1 hr with hr | hr
      · obtain ⟨s, hs, rfl⟩ := List.mem_map.1 hr
        exact j1 s hs
      · exact i1 r hr
    · rw [expand_append]
      exact j2.append i2

theorem mem_ucols {u : UQuery} {proj : List Nat} (hp : ∀ x ∈ proj, x ∈ kept u) {t : UTree} (hg : UGood u t.parts) (x : Nat) :
    x ∈ ucols u proj (.union t) ↔ x ∈ proj ∧ ∃ p ∈ u.parts, In x p.1 := by
  simp only [ucols, mem_setOf, List.mem_flatMap]
  constructor
  · rintro ⟨a, ha, h⟩
    obtain ⟨hw, _, _⟩ := final_wf (hg.final a ha)
    obtain ⟨h1, h2⟩ := (mem_cols hw (part_used hp a.1 a.2) x).1 h
    refine ⟨h1, ?_⟩
    have hi : a.1 < u.parts.length := List.mem_range.1 (hg.index ▸ List.mem_map_of_mem ha)
    have h3 := (final_vars (hg.final a ha) x).1 h2
    refine ⟨u.parts[a.1], List.getElem_mem hi, ?_⟩
    simpa [part, List.getElem?_eq_getElem hi] using h3
  · rintro ⟨h1, p, hpm, h2⟩
    obtain ⟨i, hi, rfl⟩ := List.mem_iff_getElem.1 hpm
    have : i ∈ t.parts.map (·.1) := hg.index ▸ List.mem_range.2 hi
    obtain ⟨a, ha, rfl⟩ := List.mem_map.1 this
    refine ⟨a, ha, ?_⟩
    obtain ⟨hw, _, _⟩ := final_wf (hg.final a ha)
    refine (mem_cols hw (part_used hp a.1 a.2) x).2 ⟨h1, (final_vars (hg.final a ha) x).2 ?_⟩
    simpa [part, List.getElem?_eq_getElem hi] using h2

/-- A plan of the whole query: the union below filters. -/
def filtered (t : UTree) : List Nat → UPlan
  | [] => .union t
  | j :: js => .filter j (filtered t js)

theorem mem_ucols_filtered {u : UQuery} {t : UTree} (hg : UGood u t.parts) : ∀ (js : List Nat), (∀ j ∈ js, j < u.filters.length) → ∀ {proj : List Nat}, (∀ x ∈ proj, x ∈ kept u) → ∀ (x : Nat),
    x ∈ ucols u proj (filtered t js) ↔ x ∈ proj ∧ ∃ p ∈ u.parts, In x p.1 := by
  intro js
  induction js with
  | nil => intro _ proj hp x; exact mem_ucols hp hg x
  | cons j js ih =>
    intro hj proj hp x
    have hp' : ∀ x ∈ proj ++ (u.filt j).vars, x ∈ kept u := by
      intro x hx
      rcases List.mem_append.1 hx with h | h
      · exact hp x h
      · have hl := hj j (by simp)
        unfold UQuery.filt at h
        rw [List.getElem?_eq_getElem hl] at h
        exact List.mem_append_right _ (List.mem_flatMap.2 ⟨_, List.getElem_mem hl, h⟩)
    simp only [filtered, ucols, List.mem_filter, ih (fun k hk => hj k (List.mem_cons_of_mem _ hk)) hp', List.mem_append, List.contains_eq_mem, Bool.not_eq_true', Bool.and_eq_false_imp, decide_eq_true_eq,
      Bool.not_eq_false']
    constructor
    · rintro ⟨⟨h | h, h2⟩, h3⟩
      · exact ⟨h, h2⟩
      · exact ⟨h3 h, h2⟩
    · rintro ⟨h, h2⟩
      exact ⟨⟨.inl h, h2⟩, fun _ => h⟩

theorem kept_filter {u : UQuery} {proj : List Nat} (hp : ∀ x ∈ proj, x ∈ kept u) {j : Nat} (hj : j < u.filters.length) : ∀ x ∈ proj ++ (u.filt j).vars, x ∈ kept u := by
  intro x hx
  rcases List.mem_append.1 hx with h | h
  · exact hp x h
  · unfold UQuery.filt at h
    rw [List.getElem?_eq_getElem hj] at h
    exact List.mem_append_right _ (List.mem_flatMap.2 ⟨_, List.getElem_mem hj, h⟩)

/-- A solution has the variables of its alternative. -/
theorem allSols_vars {db : List Triple} {u : UQuery} {ps : List (Nat × Plan)} (hg : UGood u ps) {c : Choice} (hc : c ∈ allSols db u ps) : ∃ p ∈ u.parts, ∀ x, x ∈ cvars c ↔ In x p.1 := by
  obtain ⟨a, ha, h⟩ := List.mem_flatMap.1 hc
  have hi : a.1 < u.parts.length := List.mem_range.1 (hg.index ▸ List.mem_map_of_mem ha)
  refine ⟨u.parts[a.1], List.getElem_mem hi, fun x => ?_⟩
  rw [(mem_sols h).2, final_vars (hg.final a ha)]
  simp [part, List.getElem?_eq_getElem hi]

/-- A condition sees in a row what it sees in the solution, if its variables are everywhere. -/
theorem cell_value {db : List Triple} {u : UQuery} {ps : List (Nat × Plan)} (hg : UGood u ps) {c : Choice} (hc : c ∈ allSols db u ps) {names : List Nat} {x : Nat}
    (hn : x ∈ names ↔ ∃ p ∈ u.parts, In x p.1) (hx : Everywhere u x) :
    (if names.contains x then some (look names (names.map (filled c)) x) else none) = value c x := by
  obtain ⟨p, hp, hv⟩ := allSols_vars hg hc
  by_cases h : x ∈ names
  · rw [if_pos (by simpa using h), look_map' h, filled]
    have := (hv x).2 (hx (hn.1 h) p hp)
    rw [value_eq_val this]; rfl
  · rw [if_neg (by simpa using h), value_none]
    intro hm
    exact h (hn.2 ⟨p, hp, (hv x).1 hm⟩)

theorem urows {db : List Triple} {u : UQuery} (hdb : ∀ t ∈ db, t.1 < 2 ^ 64 ∧ t.2.1 < 2 ^ 64 ∧ t.2.2 < 2 ^ 64) (hq : ∀ i, Fine (part u i)) {t : UTree} (hg : UGood u t.parts)
    (hfc : ∀ f ∈ u.filters, ∀ g g' : Nat → Option Nat, (∀ x ∈ f.vars, g x = g' x) → f.holds g = f.holds g') (hfe : ∀ f ∈ u.filters, ∀ x ∈ f.vars, Everywhere u x) :
    ∀ (js : List Nat), (∀ j ∈ js, j < u.filters.length) → ∀ {proj : List Nat}, (∀ x ∈ proj, x ∈ kept u) → ∀ {rows : List Row}, UExecOn (ScanRows db) u proj (filtered t js) rows →
      (∀ r ∈ rows, r.1 ≠ 0) ∧ (expand rows).Perm (((allSols db u t.parts).filter fun c => js.all fun j => (u.filt j).holds (value c)).map fun c => (ucols u proj (filtered t js)).map (filled c)) := by
  intro js
  induction js with
  | nil =>
    intro _ proj hp rows h
    match h with
    | .union R h1 h2 =>
      rw [Union.C71_union _ h2]
      have := parts_rows hdb hp hq (vars := ucols u proj (.union t)) (fun x hx => ((mem_ucols hp hg x).1 hx).1) h1 hg.final
      have e : ((allSols db u t.parts).filter fun c => ([] : List Nat).all fun j => (u.filt j).holds (value c)) = allSols db u t.parts := List.filter_eq_self.2 fun _ _ => rfl
      rw [e]
      exact this
  | cons j js ih =>
    intro hj proj hp rows h
    match h with
    | .filter (rows := rows') h1 h2 =>
      have hjl := hj j (by simp)
      have hp' := kept_filter hp hjl
      obtain ⟨i1, i2⟩ := ih (fun k hk => hj k (List.mem_cons_of_mem _ hk)) hp' h1
      have hmem : u.filt j ∈ u.filters := by unfold UQuery.filt; rw [List.getElem?_eq_getElem hjl]; exact List.getElem_mem hjl
      refine ⟨?_, ?_⟩
      · intro r hr
        obtain ⟨s, hs, rfl⟩ := List.mem_map.1 hr
        exact i1 s (List.mem_filter.1 hs).1
      · unfold pick
        rw [expand_map fun t' => (ucols u proj (.filter j (filtered t js))).map (look (ucols u (proj ++ (u.filt j).vars) (filtered t js)) t'),
          expand_filter fun t' => (u.filt j).holds fun x => if (ucols u (proj ++ (u.filt j).vars) (filtered t js)).contains x then some (look (ucols u (proj ++ (u.filt j).vars) (filtered t js)) t' x) else none]
        refine ((i2.filter _).map _).trans ?_
        rw [List.filter_map, List.map_map, List.filter_filter]
        have hnames := mem_ucols_filtered hg js (fun k hk => hj k (List.mem_cons_of_mem _ hk)) hp'
        have e1 : ((allSols db u t.parts).filter fun c => ((fun t' => (u.filt j).holds fun x => if (ucols u (proj ++ (u.filt j).vars) (filtered t js)).contains x then some (look (ucols u (proj ++ (u.filt j).vars) (filtered t js)) t' x) else none) ∘
            fun c => (ucols u (proj ++ (u.filt j).vars) (filtered t js)).map (filled c)) c && js.all fun j => (u.filt j).holds (value c)) =
            (allSols db u t.parts).filter fun c => (j :: js).all fun j => (u.filt j).holds (value c) := by
          refine List.filter_congr fun c hc => ?_
          rw [List.all_cons]
          congr 1
          simp only [Function.comp]
          refine hfc _ hmem _ _ fun x hx => ?_
          refine cell_value hg hc ?_ (hfe _ hmem x hx)
          rw [hnames]
          exact ⟨fun h => h.2, fun h => ⟨List.mem_append_right _ hx, h⟩⟩
        rw [e1]
        refine List.Perm.of_eq (List.map_congr_left fun c _ => ?_)
        simp only [Function.comp]
        refine List.map_congr_left fun x hx => ?_
        refine look_map' ?_ _
        have := (mem_ucols_filtered hg (j :: js) hj hp x).1 hx
        exact (hnames x).2 ⟨List.mem_append_left _ this.1, this.2⟩

end Trident.Sparql.PlanGen
