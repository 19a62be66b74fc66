import Verif.Sparql.UnionQueryProofs
/-!
# C104: Queries with UNION

Statements about `translateUnion` (Sparql/UnionQuery.lean) and the operators of its plans; the answers are `Spec.unionAnswers` (Sparql/UnionQuerySpec.lean).
-/
namespace Trident.Sparql.PlanGen
open Analysis (PElem)
open Spec (value fits In Everywhere)

variable {E : Est} {U : UEst E}

/-- Costs are numbers: they can be compared, and sums of larger costs are not better. -/
structure UEst.Fair (E : Est) (U : UEst E) : Prop where
  total : ∀ a b, E.ge a b = true ∨ E.ge b a = true
  trans : ∀ a b c, E.ge a b = true → E.ge b c = true → E.ge a c = true
  sum : ∀ best other : List E.C, best.length = other.length → (∀ (i : Nat) b o, best[i]? = some b → other[i]? = some o → E.ge o b = true) → E.better (U.sum other best) (U.sum best best) = false

/-! ## The plan -/

theorem cheapest_least (hU : UEst.Fair E U) : ∀ {l : List (Ann E)} {b : Ann E}, cheapest E l = some b → ∀ c ∈ l, E.ge c.cost b.cost = true := by
  have refl : ∀ a, E.ge a a = true := fun a => (hU.total a a).elim id id
  have key : ∀ (l : List (Ann E)) (a : Ann E), (∀ c ∈ a :: l, E.ge c.cost (l.foldl (fun bp a => if !E.ge a.cost bp.cost then a else bp) a).cost = true) := by
    intro l
    induction l with
    | nil => intro a c hc; rw [List.mem_singleton] at hc; subst hc; exact refl _
    | cons d l ih =>
      intro a c hc
      rw [List.foldl_cons]
      by_cases hd : E.ge d.cost a.cost = true
      · rw [if_neg (by simp [hd])]
        rcases List.mem_cons.1 hc with rfl | hc
        · exact ih c c (by simp)
        · rcases List.mem_cons.1 hc with rfl | hc
          · exact hU.trans _ _ _ hd (ih a a (by simp))
          · exact ih a c (List.mem_cons_of_mem _ hc)
      · rw [if_pos (by simpa using hd)]
        have had : E.ge a.cost d.cost = true := (hU.total a.cost d.cost).elim id fun h => absurd h hd
        rcases List.mem_cons.1 hc with rfl | hc
        · exact hU.trans _ _ _ had (ih d d (by simp))
        · rcases List.mem_cons.1 hc with rfl | hc
          · exact ih c c (by simp)
          · exact ih d c (List.mem_cons_of_mem _ hc)
  intro l b h c hc
  match l, h with
  | a :: l, h =>
    simp only [cheapest, Option.some.injEq] at h
    subst h
    exact key l a c hc

theorem addGroupFilters_filtered (t : UTree) : ∀ (l js : List Nat), l.foldl (fun r j => .filter j r) (filtered t js) = filtered t (l.reverse ++ js) := by
  intro l
  induction l with
  | nil => intro js; rfl
  | cons j l ih =>
    intro js
    rw [List.foldl_cons, List.reverse_cons, List.append_assoc]
    exact ih (j :: js)

theorem zip_getElem? {α β : Type} : ∀ {l : List α} {l' : List β} {x : α × β}, x ∈ l.zip l' → ∃ i : Nat, l[i]? = some x.1 ∧ l'[i]? = some x.2 := by
  intro l
  induction l with
  | nil => intro l' x h; simp at h
  | cons a l ih =>
    intro l' x h
    match l', h with
    | b :: l', h =>
      rw [List.zip_cons_cons, List.mem_cons] at h
      rcases h with rfl | h
      · exact ⟨0, by simp, by simp⟩
      · obtain ⟨i, h1, h2⟩ := ih h
        exact ⟨i + 1, by simpa using h1, by simpa using h2⟩

theorem union_plan (hE : E.Fair) (hU : UEst.Fair E U) {u : UQuery} (h2 : 2 ≤ u.parts.length) (hne : ∀ p ∈ u.parts, p.1 ≠ []) (hwidth : ∀ p ∈ u.parts, p.1.length ≤ 64) :
    ∃ t, translateUnion E U u = .plans (filtered t (List.range u.filters.length).reverse) ∧ UGood u t.parts := by
  have hpart : ∀ i < u.parts.length, ((part u i).nodes, (part u i).filters) ∈ u.parts := by
    intro i hi
    simp only [part, List.getElem?_eq_getElem hi, Option.getD_some]
    exact List.getElem_mem hi
  obtain ⟨sols, hsols⟩ : ∃ sols, allOf (fun i => (translateInt E (part u i)).bind fun l => (cheapest E l).map fun b => (l, b)) (List.range u.parts.length) = some sols := by
    refine allOf_some fun i hi => ?_
    have hm := hpart i (List.mem_range.1 hi)
    obtain ⟨a, l, h, _⟩ := translateInt_final hE (q := part u i) (hne _ hm) (hwidth _ hm)
    obtain ⟨b, hb⟩ := cheapest_some a l
    exact ⟨(a :: l, b), by rw [h]; simp [hb]⟩
  obtain ⟨hlen, hall⟩ := allOf_forall hsols
  rw [List.length_range] at hlen
  have hsol : ∀ (i : Nat) s, sols[i]? = some s → i < u.parts.length ∧ cheapest E s.1 = some s.2 ∧ ∀ b ∈ s.1, Final (part u i) b.plan := by
    intro i s hs
    have hi : i < u.parts.length := by
      have := (List.getElem?_eq_some_iff.1 hs).1
      omega
    have := hall i i s (by simp [hi]) hs
    have hm := hpart i hi
    obtain ⟨a, l, h, hf⟩ := translateInt_final hE (q := part u i) (hne _ hm) (hwidth _ hm)
    rw [h] at this
    simp only [Option.bind_some, Option.map_eq_some_iff] at this
    obtain ⟨b, hb, rfl⟩ := this
    exact ⟨hi, hb, hf⟩
  have hzne : (List.range u.parts.length).zip (sols.map (·.2.plan)) ≠ [] := by
    intro h
    have := congrArg List.length h
    rw [List.length_zip, List.length_range, List.length_map, List.length_nil] at this
    omega
  obtain ⟨t, ht, hparts⟩ := buildTree_parts hzne
  have hgood : UGood u t.parts := by
    rw [hparts]
    refine ⟨?_, ?_⟩
    · intro a ha
      obtain ⟨i, h1, h2⟩ := zip_getElem? ha
      rw [List.getElem?_map] at h2
      match hs : sols[i]?, h2 with
      | some s, h2 =>
        obtain ⟨hi, hb, hf⟩ := hsol i s hs
        simp only [Option.map_some, Option.some.injEq] at h2
        have : a.1 = i := by simpa [hi] using h1.symm
        rw [this, ← h2]
        exact hf _ (cheapest_mem hb)
    · rw [List.map_fst_zip]
      simp [hlen]
  refine ⟨t, ?_, hgood⟩
  -- the merge union
  have hmerge : ∃ l, mergeUnion E U u (sols.map (·.1)) (sols.map (·.2)) = .plans l ∧ ∀ a ∈ l, E.better a.1 (U.sum (sols.map (·.2.cost)) (sols.map (·.2.cost))) = false := by
    unfold mergeUnion
    split
    · rename_i x _
      split
      · rename_i ps hps
        rw [if_neg (by rw [List.length_map]; omega)]
        refine ⟨_, rfl, ?_⟩
        intro a ha
        rw [List.mem_singleton] at ha
        subst ha
        obtain ⟨l1, l2⟩ := allOf_forall hps
        rw [List.length_map] at l1
        simp only [List.map_map]
        have e : (List.map ((fun x : Ann E => x.cost) ∘ fun x : List (Ann E) × Ann E => x.2) sols) = sols.map (·.2.cost) := rfl
        rw [e]
        refine hU.sum _ _ (by simp [l1]) ?_
        intro i b o hb ho
        rw [List.getElem?_map] at hb ho
        match hs : sols[i]?, hp : ps[i]?, hb, ho with
        | some s, some p, hb, ho =>
          simp only [Option.map_some, Option.some.injEq] at hb ho
          subst hb ho
          have := l2 i s.1 p (by rw [List.getElem?_map, hs]; rfl) hp
          unfold findOrdering at this
          exact cheapest_least hU (hsol i s hs).2.1 p (List.mem_of_find?_eq_some this)
      · exact ⟨[], rfl, fun a h => by simp at h⟩
    · exact ⟨[], rfl, fun a h => by simp at h⟩
  obtain ⟨l, hl, hbetter⟩ := hmerge
  have hb : buildUnion E U u = .plans ((U.sum (sols.map (·.2.cost)) (sols.map (·.2.cost)), .union t) :: l) := by
    unfold buildUnion
    rw [hsols]
    simp only
    rw [ht]
    simp only
    rw [hl]
  unfold translateUnion translateUnionInt
  rw [hb]
  simp only
  match hf : u.filters with
  | [] =>
    simp only [List.isEmpty_nil, if_true]
    have key : ∀ (l : List (E.C × UPlan)) (a : E.C × UPlan), (∀ b ∈ l, E.better b.1 a.1 = false) → l.foldl (fun best a => if E.better a.1 best.1 then a else best) a = a := by
      intro l
      induction l with
      | nil => intro a _; rfl
      | cons b l ih =>
        intro a h
        rw [List.foldl_cons, if_neg (by simp [h b (by simp)])]
        exact ih a fun c hc => h c (List.mem_cons_of_mem _ hc)
    rw [key l _ hbetter]
    rfl
  | f :: fs =>
    simp only [List.isEmpty_cons, Bool.false_eq_true, if_false, List.foldl_nil]
    have := addGroupFilters_filtered t (List.range u.filters.length) []
    unfold addGroupFilters
    rw [List.append_nil] at this
    rw [← hf]
    exact congrArg _ this

/-! ## The plan can be executed -/

/-- Registers for the rows of an alternative: the variable `x` of the alternative `i` has the register `n * x + i`. -/
def register (n i : Nat) (names : List Nat) (rows : List Row) : Union.Part :=
  ⟨fun r => r % n == i, rows.map fun r => (r.1, fun reg => look names r.2 (reg / n)), names.map fun x => (x, n * x + i)⟩

theorem register_holds {n i : Nat} (hi : i < n) {names : List Nat} {rows : List Row} (h : ∀ r ∈ rows, ∃ f : Nat → Nat, r.2 = names.map f) : Holds (register n i names rows) names rows := by
  refine ⟨?_, ?_⟩
  · simp only [register, List.map_map]
    exact List.map_id'' (fun _ => rfl) _
  · simp only [register, List.map_map]
    conv => rhs; rw [← List.map_id rows]
    refine List.map_congr_left fun r hr => ?_
    obtain ⟨f, hf⟩ := h r hr
    obtain ⟨k, t⟩ := r
    simp only at hf
    subst hf
    simp only [Function.comp, id]
    congr 1
    refine List.map_congr_left fun x hx => ?_
    have hn : 0 < n := by omega
    simp only [Function.comp]
    rw [Nat.mul_add_div hn, Nat.div_eq_of_lt hi, Nat.add_zero]
    exact look_map' hx f

theorem parts_exist {S : Query → Kind → Ord → Bool → Nat → List Nat → List Row → Prop} {db : List Triple} (hS : ∀ q : Query, (∀ n ∈ q.nodes, n.vars.Nodup) → ScansOf (S q) db q) {u : UQuery} (hdb : ∀ t ∈ db, t.1 < 2 ^ 64 ∧ t.2.1 < 2 ^ 64 ∧ t.2.2 < 2 ^ 64) {proj : List Nat} (hp : ∀ x ∈ proj, x ∈ kept u)
    (hq : ∀ i, Fine (part u i)) (ht : ∀ i < u.parts.length, Spec.Tied (part u i)) (hs : ∀ i, ∀ f ∈ (part u i).filters, Spec.Safe db (part u i).nodes f) :
    ∀ {ps : List (Nat × Plan)}, (∀ a ∈ ps, Final (part u a.1) a.2 ∧ a.1 < u.parts.length) →
      ∃ ups, PartsOn S u proj ps ups ∧ ups.map (·.own) = ps.map (fun a r => r % u.parts.length == a.1) ∧
        ∀ up ∈ ups, ∃ i < u.parts.length, ∃ names : List Nat, up.own = (fun r => r % u.parts.length == i) ∧ up.binds = names.map fun x => (x, u.parts.length * x + i) := by
  intro ps
  induction ps with
  | nil => intro _; exact ⟨[], .nil, rfl, fun up h => by simp at h⟩
  | cons a ps ih =>
    intro h
    obtain ⟨ups, h1, h2, h3⟩ := ih fun b hb => h b (List.mem_cons_of_mem _ hb)
    obtain ⟨hf, hi⟩ := h a (by simp)
    obtain ⟨hw, hW, _⟩ := final_wf hf
    have hU := part_used hp a.1 a.2
    obtain ⟨rows, hr⟩ := exec_exists_on (hS _ (hq a.1).nodup) (hq a.1) (ht a.1 hi) hdb (hs a.1) hw hW hU
    have hrows := exec_rows (hq a.1) hdb (exec_mono (hS _ (hq a.1).nodup) hr hw) hw hU
    refine ⟨register u.parts.length a.1 (cols (part u a.1) proj a.2) rows :: ups, .cons hr (register_holds hi fun r h => ?_) h1, ?_, ?_⟩
    · obtain ⟨c, _, hc⟩ := Rows.shape hrows.pos hrows.perm h
      exact ⟨_, hc⟩
    · rw [List.map_cons, List.map_cons, h2]; rfl
    · intro up hup
      rcases List.mem_cons.1 hup with rfl | hup
      · exact ⟨a.1, hi, _, rfl, rfl⟩
      · exact h3 up hup

theorem parts_mono {S : Query → Kind → Ord → Bool → Nat → List Nat → List Row → Prop} {db : List Triple} (hS : ∀ q : Query, (∀ n ∈ q.nodes, n.vars.Nodup) → ScansOf (S q) db q) {u : UQuery} (hq : ∀ i, Fine (part u i)) {proj : List Nat} :
    ∀ {ps : List (Nat × Plan)} {ups : List Union.Part}, (∀ a ∈ ps, Final (part u a.1) a.2) → PartsOn S u proj ps ups → PartsOn (ScanRows db) u proj ps ups := by
  intro ps ups hf h
  induction h with
  | nil => exact .nil
  | cons h1 h2 _ ih => exact .cons (exec_mono (hS _ (hq _).nodup) h1 (final_wf (hf _ (by simp))).1) h2 (ih fun b hb => hf b (List.mem_cons_of_mem _ hb))

theorem uexec_mono {S : Query → Kind → Ord → Bool → Nat → List Nat → List Row → Prop} {db : List Triple} (hS : ∀ q : Query, (∀ n ∈ q.nodes, n.vars.Nodup) → ScansOf (S q) db q) {u : UQuery} (hq : ∀ i, Fine (part u i)) {t : UTree} (hg : UGood u t.parts) :
    ∀ {js : List Nat} {proj : List Nat} {rows : List Row}, UExecOn S u proj (filtered t js) rows → UExecOn (ScanRows db) u proj (filtered t js) rows := by
  intro js
  induction js with
  | nil => intro proj rows h; cases h with | union R h1 h2 => exact .union R (parts_mono hS hq hg.final h1) h2
  | cons j js ih => intro proj rows h; cases h with | filter h1 h2 => exact .filter (ih h1) h2

theorem uexec_exists {S : Query → Kind → Ord → Bool → Nat → List Nat → List Row → Prop} {db : List Triple} (hS : ∀ q : Query, (∀ n ∈ q.nodes, n.vars.Nodup) → ScansOf (S q) db q) {u : UQuery} (hdb : ∀ t ∈ db, t.1 < 2 ^ 64 ∧ t.2.1 < 2 ^ 64 ∧ t.2.2 < 2 ^ 64)
    (hq : ∀ i, Fine (part u i)) (ht : ∀ i < u.parts.length, Spec.Tied (part u i)) (hs : ∀ i, ∀ f ∈ (part u i).filters, Spec.Safe db (part u i).nodes f) {t : UTree} (hg : UGood u t.parts)
    (hfc : ∀ f ∈ u.filters, ∀ g g' : Nat → Option Nat, (∀ x ∈ f.vars, g x = g' x) → f.holds g = f.holds g') (hfe : ∀ f ∈ u.filters, ∀ x ∈ f.vars, Everywhere u x)
    (hfs : ∀ f ∈ u.filters, Spec.Safe db (u.parts.flatMap (·.1)) f) :
    ∀ (js : List Nat), (∀ j ∈ js, j < u.filters.length) → ∀ {proj : List Nat}, (∀ x ∈ proj, x ∈ kept u) → ∃ rows, UExecOn S u proj (filtered t js) rows := by
  intro js
  induction js with
  | nil =>
    intro _ proj hp
    obtain ⟨ups, h1, h2, h3⟩ := parts_exist hS hdb hp hq ht hs (ps := t.parts) fun a ha => ⟨hg.final a ha, List.mem_range.1 (hg.index ▸ List.mem_map_of_mem ha)⟩
    refine ⟨_, .union (fun _ => 0) h1 ⟨?_, ?_, ?_⟩⟩
    · have hn : (t.parts.map (·.1)).Nodup := hg.index ▸ List.nodup_range
      have h4 : (t.parts.map fun a (r : Nat) => r % u.parts.length == a.1).Pairwise fun f g => ∀ x, f x = true → g x = false := by
        rw [List.pairwise_map]
        refine (List.pairwise_map.1 hn).imp ?_
        intro a b hab x hx
        simp only [beq_iff_eq] at hx
        simp only [hx]
        simpa using hab
      rw [← h2, List.pairwise_map] at h4
      exact h4
    · intro up hup b hb
      obtain ⟨i, hi, names, e1, e2⟩ := h3 up hup
      rw [e2] at hb
      obtain ⟨x, _, rfl⟩ := List.mem_map.1 hb
      rw [e1]
      simp only [Nat.mul_add_mod, Nat.mod_eq_of_lt hi, BEq.rfl]
    · intro up hup b hb b' hb'
      obtain ⟨i, hi, names, e1, e2⟩ := h3 up hup
      rw [e2] at hb hb'
      obtain ⟨x, _, rfl⟩ := List.mem_map.1 hb
      obtain ⟨y, _, rfl⟩ := List.mem_map.1 hb'
      constructor
      · intro h; simp only at h ⊢; rw [h]
      · intro h
        simp only at h ⊢
        exact Nat.eq_of_mul_eq_mul_left (by omega : 0 < u.parts.length) (by omega)
  | cons j js ih =>
    intro hj proj hp
    have hjl := hj j (by simp)
    have hp' := kept_filter hp hjl
    have hjs := fun k hk => hj k (List.mem_cons_of_mem j hk)
    obtain ⟨rows, h⟩ := ih hjs hp'
    have hmem : u.filt j ∈ u.filters := by unfold UQuery.filt; rw [List.getElem?_eq_getElem hjl]; exact List.getElem_mem hjl
    refine ⟨_, .filter h ?_⟩
    intro r hr
    obtain ⟨h1, h2⟩ := urows hdb hq hg hfc hfe js hjs hp' (uexec_mono hS hq hg h)
    have h3 : r.2 ∈ expand rows := mem_expand.2 ⟨r, hr, h1 r hr, rfl⟩
    obtain ⟨c, hc, he⟩ := List.mem_map.1 (h2.mem_iff.1 h3)
    have hc := (List.mem_filter.1 hc).1
    rw [← he]
    refine hfs _ hmem _ fun x hx => ?_
    have hnames := mem_ucols_filtered hg js hjs hp' x
    have hval := cell_value hg hc (names := ucols u (proj ++ (u.filt j).vars) (filtered t js)) (x := x) ⟨fun h => (hnames.1 h).2, fun h => hnames.2 ⟨List.mem_append_right _ hx, h⟩⟩ (hfe _ hmem x hx)
    refine ⟨fun v hv => ?_, fun hnone => ?_⟩
    · rw [hval] at hv
      obtain ⟨a, ha, hca⟩ := List.mem_flatMap.1 hc
      obtain ⟨hw, _, _⟩ := final_wf (hg.final a ha)
      obtain ⟨n, hn, rest⟩ := sols_seen hw hca hv
      have hi : a.1 < u.parts.length := List.mem_range.1 (hg.index ▸ List.mem_map_of_mem ha)
      refine ⟨n, List.mem_flatMap.2 ⟨u.parts[a.1], List.getElem_mem hi, ?_⟩, rest⟩
      simpa [part, List.getElem?_eq_getElem hi] using hn
    · intro n hn hvar
      obtain ⟨p, hp1, hp2⟩ := List.mem_flatMap.1 hn
      have : x ∈ ucols u (proj ++ (u.filt j).vars) (filtered t js) := hnames.2 ⟨List.mem_append_right _ hx, p, hp1, n, hp2, hvar⟩
      rw [if_pos (by simpa using this)] at hnone
      cases hnone

/-! ## The answers -/

/-- Two lists with the same values have the same images, if conditions and images depend on the values. -/
theorem perm_factor {α β γ : Type} [Inhabited γ] {A B : List α} {V : α → β} (h : (A.map V).Perm (B.map V)) {P : α → Bool} {G : α → γ} (hP : ∀ a b, V a = V b → P a = P b) (hG : ∀ a b, V a = V b → G a = G b) :
    ((A.filter P).map G).Perm ((B.filter P).map G) := by
  classical
  have key : ∀ l : List α, (l.filter P).map G = ((l.map V).filter fun v => decide (∃ a, V a = v ∧ P a = true)).map fun v => if h : ∃ a, V a = v then G h.choose else default := by
    intro l
    rw [List.filter_map, List.map_map]
    have e1 : l.filter P = l.filter ((fun v => decide (∃ a, V a = v ∧ P a = true)) ∘ V) := by
      refine List.filter_congr fun a _ => ?_
      simp only [Function.comp]
      by_cases ha : P a = true
      · rw [ha]; exact (decide_eq_true ⟨a, rfl, ha⟩).symm
      · rw [Bool.not_eq_true] at ha
        rw [ha]
        refine (decide_eq_false ?_).symm
        rintro ⟨b, hb, hPb⟩
        rw [hP b a hb, ha] at hPb
        cases hPb
    rw [e1]
    refine List.map_congr_left fun a _ => ?_
    simp only [Function.comp]
    rw [dif_pos ⟨a, rfl⟩]
    have hx : ∃ b, V b = V a := ⟨a, rfl⟩
    exact hG _ _ hx.choose_spec.symm
  rw [key, key]
  exact (h.filter _).map _

theorem parts_eq (u : UQuery) : (List.range u.parts.length).map (fun i => ((part u i).nodes, (part u i).filters)) = u.parts := by
  refine List.ext_getElem (by simp) fun i h1 h2 => ?_
  simp [part, List.getElem?_eq_getElem h2]

theorem allSols_values {db : List Triple} {u : UQuery} (hq : ∀ i, Fine (part u i)) {ps : List (Nat × Plan)} (hg : UGood u ps) (xs : List Nat) :
    ((allSols db u ps).map fun c => xs.map (value c)).Perm ((u.parts.flatMap (Spec.solutions db)).map fun c => xs.map (value c)) := by
  have h1 : ∀ ps : List (Nat × Plan), (∀ a ∈ ps, Final (part u a.1) a.2) →
      ((allSols db u ps).map fun c => xs.map (value c)).Perm ((((ps.map (·.1)).map fun i => ((part u i).nodes, (part u i).filters)).flatMap (Spec.solutions db)).map fun c => xs.map (value c)) := by
    intro ps
    induction ps with
    | nil => intro _; exact .refl _
    | cons a ps ih =>
      intro h
      simp only [allSols, List.flatMap_cons, List.map_append, List.map_cons]
      exact (sols_values (hq a.1) (h a (by simp)) xs).append (ih fun b hb => h b (List.mem_cons_of_mem _ hb))
  have := h1 ps hg.final
  rwa [hg.index, parts_eq] at this

theorem choices_in {db : List Triple} {x : Nat} : ∀ {ns : List Node} {c : Choice}, c ∈ Spec.choices db ns → x ∈ cvars c → In x ns := by
  intro ns
  induction ns with
  | nil => intro c hc hx; rw [Spec.choices, List.mem_singleton] at hc; subst hc; simp [cvars] at hx
  | cons n ns ih =>
    intro c hc hx
    simp only [Spec.choices, List.mem_flatMap, List.mem_map] at hc
    obtain ⟨t, _, c', hc', rfl⟩ := hc
    rw [cvars_append, List.mem_append] at hx
    rcases hx with hx | hx
    · refine ⟨n, by simp, ?_⟩
      obtain ⟨a, b, d⟩ := n
      cases a <;> cases b <;> cases d <;> simp [Spec.beside, cvars] at hx ⊢ <;> exact hx
    · obtain ⟨m, hm, h⟩ := ih hc' hx
      exact ⟨m, List.mem_cons_of_mem _ hm, h⟩

/-- What is printed for a variable: its value; if the alternative does not have the variable, but another one has, the number 4294967295; and nothing if no alternative has it. -/
def shown (u : UQuery) (c : List (PElem Nat × Nat)) (x : Nat) : Option Nat :=
  match value c x with
  | some v => some v
  | none => if ∃ p ∈ u.parts, In x p.1 then some 4294967295 else none

/-- `C104_shown` for scans that return the rows of the triples. -/
theorem shown_on {S : Query → Kind → Ord → Bool → Nat → List Nat → List Row → Prop} (E : Est) (U : UEst E) (hE : E.Fair) (hU : UEst.Fair E U) (db : List Triple) (hdb : ∀ t ∈ db, t.1 < 2 ^ 64 ∧ t.2.1 < 2 ^ 64 ∧ t.2.2 < 2 ^ 64)
    (hS : ∀ q : Query, (∀ n ∈ q.nodes, n.vars.Nodup) → ScansOf (S q) db q) (u : UQuery) (h2 : 2 ≤ u.parts.length) (hne : ∀ p ∈ u.parts, p.1 ≠ []) (hwidth : ∀ p ∈ u.parts, p.1.length ≤ 64) (hvars : ∀ p ∈ u.parts, ∀ n ∈ p.1, n.vars.Nodup)
    (htied : ∀ i < u.parts.length, Spec.Tied (part u i))
    (hfilters : ∀ f, f ∈ u.filters ∨ (∃ p ∈ u.parts, f ∈ p.2) → ∀ g g' : Nat → Option Nat, (∀ x ∈ f.vars, g x = g' x) → f.holds g = f.holds g')
    (hsafe : ∀ p ∈ u.parts, ∀ f ∈ p.2, Spec.Safe db p.1 f) (hsafe' : ∀ f ∈ u.filters, Spec.Safe db (u.parts.flatMap (·.1)) f)
    (heverywhere : ∀ f ∈ u.filters, ∀ x ∈ f.vars, Everywhere u x) :
    ∃ p, translateUnion E U u = .plans p ∧ (∃ out, UAnswersOn S u p out) ∧
      ∀ out, UAnswersOn S u p out → (out.flatMap fun r => List.replicate r.1 r.2).Perm ((Spec.unionSolutions db u).map fun c => u.projection.map (shown u c)) := by
  have hmem : ∀ i, i < u.parts.length → ((part u i).nodes, (part u i).filters) ∈ u.parts := by
    intro i hi
    simp only [part, List.getElem?_eq_getElem hi, Option.getD_some]
    exact List.getElem_mem hi
  have hnil : ∀ i, ¬ i < u.parts.length → (part u i).nodes = [] ∧ (part u i).filters = [] := by
    intro i hi
    simp [part, List.getElem?_eq_none (by omega : u.parts.length ≤ i)]
  have hq : ∀ i, Fine (part u i) := by
    intro i
    by_cases hi : i < u.parts.length
    · exact ⟨hvars _ (hmem i hi), fun f hf => hfilters f (.inr ⟨_, hmem i hi, hf⟩)⟩
    · exact ⟨by rw [(hnil i hi).1]; simp, by rw [(hnil i hi).2]; simp⟩
  have hs : ∀ i, ∀ f ∈ (part u i).filters, Spec.Safe db (part u i).nodes f := by
    intro i
    by_cases hi : i < u.parts.length
    · exact hsafe _ (hmem i hi)
    · rw [(hnil i hi).2]; simp
  obtain ⟨t, ht, hg⟩ := union_plan hE hU h2 hne hwidth
  have hfc := fun f hf => hfilters f (.inl hf)
  have hjs : ∀ j ∈ (List.range u.filters.length).reverse, j < u.filters.length := fun j hj => List.mem_range.1 (List.mem_reverse.1 hj)
  have hp : ∀ x ∈ setOf (u.projection ++ u.order), x ∈ kept u := fun x hx => List.mem_append_left _ (mem_setOf.1 hx)
  refine ⟨_, ht, ?_, ?_⟩
  · obtain ⟨rows, h⟩ := uexec_exists hS hdb hq htied hs hg hfc heverywhere hsafe' _ hjs hp
    exact ⟨_, rows, h, rfl⟩
  · rintro out ⟨rows, h, rfl⟩
    obtain ⟨_, hr⟩ := urows hdb hq hg hfc heverywhere _ hjs hp (uexec_mono hS hq hg h)
    have hnames := mem_ucols_filtered hg _ hjs hp
    rw [expand_out fun r => u.projection.map fun x => if (ucols u (setOf (u.projection ++ u.order)) (filtered t (List.range u.filters.length).reverse)).contains x then
      some (look (ucols u (setOf (u.projection ++ u.order)) (filtered t (List.range u.filters.length).reverse)) r x) else none]
    refine (hr.map _).trans ?_
    rw [List.map_map]
    have e1 : ∀ c : Choice, ((fun r => u.projection.map fun x => if (ucols u (setOf (u.projection ++ u.order)) (filtered t (List.range u.filters.length).reverse)).contains x then
        some (look (ucols u (setOf (u.projection ++ u.order)) (filtered t (List.range u.filters.length).reverse)) r x) else none) ∘
        fun c => (ucols u (setOf (u.projection ++ u.order)) (filtered t (List.range u.filters.length).reverse)).map (filled c)) c =
        u.projection.map fun x => if ∃ p ∈ u.parts, In x p.1 then some (filled c x) else none := by
      intro c
      refine List.map_congr_left fun x hx => ?_
      have hn := hnames x
      have hxp : x ∈ setOf (u.projection ++ u.order) := mem_setOf.2 (List.mem_append_left _ hx)
      by_cases hm : x ∈ ucols u (setOf (u.projection ++ u.order)) (filtered t (List.range u.filters.length).reverse)
      · rw [if_pos (by simpa using hm), if_pos (hn.1 hm).2, look_map' hm]
      · rw [if_neg (by simpa using hm), if_neg fun h => hm (hn.2 ⟨hxp, h⟩)]
    rw [List.map_congr_left fun c _ => e1 c]
    have e2 : ∀ c : Choice, ((List.range u.filters.length).reverse.all fun j => (u.filt j).holds (value c)) = u.filters.all fun f => f.holds (value c) := by
      intro c
      rw [List.all_reverse]
      have : u.filters = (List.range u.filters.length).map u.filt := by
        refine List.ext_getElem (by simp) fun i h1 h2 => ?_
        simp [UQuery.filt, List.getElem?_eq_getElem h1]
      conv => rhs; rw [this]
      rw [List.all_map]
      rfl
    rw [List.filter_congr fun c _ => e2 c]
    have hV := allSols_values (db := db) hq hg (u.projection ++ u.filters.flatMap (·.vars))
    have hval : ∀ a b : Choice, (u.projection ++ u.filters.flatMap (·.vars)).map (value a) = (u.projection ++ u.filters.flatMap (·.vars)).map (value b) →
        ∀ x ∈ u.projection ++ u.filters.flatMap (·.vars), value a x = value b x := fun a b h x hx => List.map_inj_left.1 h x hx
    refine (perm_factor hV ?_ ?_).trans (List.Perm.of_eq ?_)
    · intro a b hab
      have key : ∀ f ∈ u.filters, f.holds (value a) = f.holds (value b) := fun f hf =>
        hfc f hf _ _ fun x hx => hval a b hab x (List.mem_append_right _ (List.mem_flatMap.2 ⟨f, hf, hx⟩))
      rw [Bool.eq_iff_iff, List.all_eq_true, List.all_eq_true]
      exact ⟨fun h f hf => key f hf ▸ h f hf, fun h f hf => (key f hf).symm ▸ h f hf⟩
    · intro a b hab
      refine List.map_congr_left fun x hx => ?_
      rw [filled, filled, hval a b hab x (List.mem_append_left _ hx)]
    · unfold Spec.unionSolutions
      refine List.map_congr_left fun c hc => List.map_congr_left fun x hx => ?_
      unfold shown filled
      match hv : value c x with
      | none => rfl
      | some v =>
        simp only [Option.getD_some]
        rw [if_pos]
        obtain ⟨p, hp1, hp2⟩ := List.mem_flatMap.1 (List.mem_filter.1 hc).1
        exact ⟨p, hp1, choices_in (List.mem_filter.1 hp2).1 (value_isSome.1 ⟨v, hv⟩)⟩

/-- **C104, with what is printed for variables without value.** For all estimates: a query with a UNION of at least two alternatives, which are groups as in `C85_answers_partial`, and conditions on variables that are in all
alternatives gets a plan, which can be executed, and what is printed are the solutions of all alternatives, with multiplicities, for which the conditions hold. -/
theorem C104_shown (E : Est) (U : UEst E) (hE : E.Fair) (hU : UEst.Fair E U) (db : List Triple) (hdb : ∀ t ∈ db, t.1 < 2 ^ 64 ∧ t.2.1 < 2 ^ 64 ∧ t.2.2 < 2 ^ 64)
    (u : UQuery) (h2 : 2 ≤ u.parts.length) (hne : ∀ p ∈ u.parts, p.1 ≠ []) (hwidth : ∀ p ∈ u.parts, p.1.length ≤ 64) (hvars : ∀ p ∈ u.parts, ∀ n ∈ p.1, n.vars.Nodup)
    (htied : ∀ i < u.parts.length, Spec.Tied (part u i))
    (hfilters : ∀ f, f ∈ u.filters ∨ (∃ p ∈ u.parts, f ∈ p.2) → ∀ g g' : Nat → Option Nat, (∀ x ∈ f.vars, g x = g' x) → f.holds g = f.holds g')
    (hsafe : ∀ p ∈ u.parts, ∀ f ∈ p.2, Spec.Safe db p.1 f) (hsafe' : ∀ f ∈ u.filters, Spec.Safe db (u.parts.flatMap (·.1)) f)
    (heverywhere : ∀ f ∈ u.filters, ∀ x ∈ f.vars, Everywhere u x) :
    ∃ p, translateUnion E U u = .plans p ∧ (∃ out, UAnswers db u p out) ∧
      ∀ out, UAnswers db u p out → (out.flatMap fun r => List.replicate r.1 r.2).Perm ((Spec.unionSolutions db u).map fun c => u.projection.map (shown u c)) :=
  shown_on E U hE hU db hdb (fun _ _ => scansOf_rows) u h2 hne hwidth hvars htied hfilters hsafe hsafe' heverywhere

/-- `C104_union_partial` for scans that return the rows of the triples. -/
theorem union_on {S : Query → Kind → Ord → Bool → Nat → List Nat → List Row → Prop} (E : Est) (U : UEst E) (hE : E.Fair) (hU : UEst.Fair E U) (db : List Triple) (hdb : ∀ t ∈ db, t.1 < 2 ^ 64 ∧ t.2.1 < 2 ^ 64 ∧ t.2.2 < 2 ^ 64)
    (hS : ∀ q : Query, (∀ n ∈ q.nodes, n.vars.Nodup) → ScansOf (S q) db q) (u : UQuery) (h2 : 2 ≤ u.parts.length) (hne : ∀ p ∈ u.parts, p.1 ≠ []) (hwidth : ∀ p ∈ u.parts, p.1.length ≤ 64) (hvars : ∀ p ∈ u.parts, ∀ n ∈ p.1, n.vars.Nodup)
    (htied : ∀ i < u.parts.length, Spec.Tied (part u i))
    (hfilters : ∀ f, f ∈ u.filters ∨ (∃ p ∈ u.parts, f ∈ p.2) → ∀ g g' : Nat → Option Nat, (∀ x ∈ f.vars, g x = g' x) → f.holds g = f.holds g')
    (hsafe : ∀ p ∈ u.parts, ∀ f ∈ p.2, Spec.Safe db p.1 f) (hsafe' : ∀ f ∈ u.filters, Spec.Safe db (u.parts.flatMap (·.1)) f)
    (heverywhere : ∀ f ∈ u.filters, ∀ x ∈ f.vars, Everywhere u x) (hproj : ∀ x ∈ u.projection, Everywhere u x) :
    ∃ p, translateUnion E U u = .plans p ∧ (∃ out, UAnswersOn S u p out) ∧
      ∀ out, UAnswersOn S u p out → (out.flatMap fun r => List.replicate r.1 r.2).Perm (Spec.unionAnswers db u) := by
  obtain ⟨p, h1, h3, h4⟩ := shown_on E U hE hU db hdb hS u h2 hne hwidth hvars htied hfilters hsafe hsafe' heverywhere
  refine ⟨p, h1, h3, fun out ho => (h4 out ho).trans (List.Perm.of_eq ?_)⟩
  refine List.map_congr_left fun c hc => List.map_congr_left fun x hx => ?_
  unfold shown
  match hv : value c x with
  | some v => rfl
  | none =>
    simp only
    rw [if_neg]
    intro hin
    obtain ⟨a, ha1, ha2⟩ := List.mem_flatMap.1 (List.mem_filter.1 hc).1
    obtain ⟨n, hn, hxn⟩ := hproj x hx hin a ha1
    have : x ∈ cvars c := by
      rw [cvars_choices (List.mem_filter.1 ha2).1]
      exact List.mem_flatMap.2 ⟨n, hn, mem_node_vars.2 hxn⟩
    rw [value_eq_val this] at hv
    cases hv

/-- **C104 (part).** For all estimates: a query with a UNION of at least two alternatives and conditions, in which the projected variables and those of the conditions of the group are in all alternatives or in none, gets a plan, which can be
executed, and what is printed are the answers: those of all alternatives, with multiplicities.  The alternatives are groups as in `C85_answers_partial`.
Missing: variables that some alternatives do not have (see `C104_shown` and `C104_unbound_violated`), one alternative (see `C104_unknown_violated`), alternatives without patterns (see `C104_empty_violated`), and other parts of the group. -/
theorem C104_union_partial (E : Est) (U : UEst E) (hE : E.Fair) (hU : UEst.Fair E U) (db : List Triple) (hdb : ∀ t ∈ db, t.1 < 2 ^ 64 ∧ t.2.1 < 2 ^ 64 ∧ t.2.2 < 2 ^ 64)
    (u : UQuery) (h2 : 2 ≤ u.parts.length) (hne : ∀ p ∈ u.parts, p.1 ≠ []) (hwidth : ∀ p ∈ u.parts, p.1.length ≤ 64) (hvars : ∀ p ∈ u.parts, ∀ n ∈ p.1, n.vars.Nodup)
    (htied : ∀ i < u.parts.length, Spec.Tied (part u i))
    (hfilters : ∀ f, f ∈ u.filters ∨ (∃ p ∈ u.parts, f ∈ p.2) → ∀ g g' : Nat → Option Nat, (∀ x ∈ f.vars, g x = g' x) → f.holds g = f.holds g')
    (hsafe : ∀ p ∈ u.parts, ∀ f ∈ p.2, Spec.Safe db p.1 f) (hsafe' : ∀ f ∈ u.filters, Spec.Safe db (u.parts.flatMap (·.1)) f)
    (heverywhere : ∀ f ∈ u.filters, ∀ x ∈ f.vars, Everywhere u x) (hproj : ∀ x ∈ u.projection, Everywhere u x) :
    ∃ p, translateUnion E U u = .plans p ∧ (∃ out, UAnswers db u p out) ∧
      ∀ out, UAnswers db u p out → (out.flatMap fun r => List.replicate r.1 r.2).Perm (Spec.unionAnswers db u) :=
  union_on E U hE hU db hdb (fun _ _ => scansOf_rows) u h2 hne hwidth hvars htied hfilters hsafe hsafe' heverywhere hproj

def exampleUEst : UEst exampleEst where
  sum := fun costs _ => List.sum (α := Nat) costs

theorem exampleUEst_fair : UEst.Fair exampleEst exampleUEst where
  total := fun (a b : Nat) => by
    simp only [exampleEst, decide_eq_true_eq]
    omega
  trans := fun (a b c : Nat) => by
    simp only [exampleEst, decide_eq_true_eq]
    omega
  sum := by
    intro best other hl h
    have key : ∀ (best other : List Nat), best.length = other.length → (∀ (i : Nat) b o, best[i]? = some b → other[i]? = some o → b ≤ o) → best.sum ≤ other.sum := by
      intro best
      induction best with
      | nil => intro other _ _; simp
      | cons b l ih =>
        intro other hl h
        match other, hl with
        | o :: l', hl =>
          have h0 := h 0 b o (by simp) (by simp)
          have h1 := ih l' (by simpa using hl) fun i b o hb ho => h (i + 1) b o (by simpa using hb) (by simpa using ho)
          simp only [List.sum_cons]
          omega
    have := key best other hl fun i b o hb ho => of_decide_eq_true (h i b o hb ho)
    show decide (List.sum (α := Nat) other < List.sum (α := Nat) best) = false
    exact decide_eq_false (by omega)

/-- `SELECT ?0 ?1 { { ?0 10 ?1 } UNION { ?1 11 ?0 . ?2 12 ?3 } UNION { ?0 13 ?1 FILTER(?1 = 5) } FILTER(?0 != ?1) }` -/
def exampleUnion : UQuery where
  parts := [([(.var 0, .const 10, .var 1)], []), ([(.var 1, .const 11, .var 0), (.var 2, .const 12, .var 3), (.var 3, .const 12, .var 2)], []), ([(.var 0, .const 13, .var 1)], [⟨[1], fun g => g 1 == some 5, fun _ => true⟩])]
  filters := [⟨[0, 1], fun g => g 0 != g 1, fun g => (g 0).isSome && (g 1).isSome⟩]
  projection := [0, 1]
  order := []

def exampleUnionDb : List Triple := [(5, 10, 2), (6, 10, 6), (7, 11, 1), (2, 12, 3), (3, 12, 2), (4, 13, 5), (4, 13, 6)]

example : Spec.unionAnswers exampleUnionDb exampleUnion = [[some 5, some 2], [some 1, some 7], [some 1, some 7], [some 4, some 5]] := by decide +kernel

theorem everywhere01 {x : Nat} (hx : x = 0 ∨ x = 1) : Everywhere exampleUnion x := by
  intro _ p hp
  simp only [exampleUnion, List.mem_cons, List.not_mem_nil, or_false] at hp
  rcases hx with rfl | rfl <;> rcases hp with rfl | rfl | rfl <;> decide

theorem exampleUnion_ok : exampleEst.Fair ∧ UEst.Fair exampleEst exampleUEst ∧ (∀ t ∈ exampleUnionDb, t.1 < 2 ^ 64 ∧ t.2.1 < 2 ^ 64 ∧ t.2.2 < 2 ^ 64) ∧ 2 ≤ exampleUnion.parts.length ∧
    (∀ p ∈ exampleUnion.parts, p.1 ≠ []) ∧ (∀ p ∈ exampleUnion.parts, p.1.length ≤ 64) ∧ (∀ p ∈ exampleUnion.parts, ∀ n ∈ p.1, n.vars.Nodup) ∧
    (∀ i < exampleUnion.parts.length, Spec.Tied (part exampleUnion i)) ∧
    (∀ f, f ∈ exampleUnion.filters ∨ (∃ p ∈ exampleUnion.parts, f ∈ p.2) → ∀ g g' : Nat → Option Nat, (∀ x ∈ f.vars, g x = g' x) → f.holds g = f.holds g') ∧
    (∀ p ∈ exampleUnion.parts, ∀ f ∈ p.2, Spec.Safe exampleUnionDb p.1 f) ∧ (∀ f ∈ exampleUnion.filters, Spec.Safe exampleUnionDb (exampleUnion.parts.flatMap (·.1)) f) ∧
    (∀ f ∈ exampleUnion.filters, ∀ x ∈ f.vars, Everywhere exampleUnion x) ∧ (∀ x ∈ exampleUnion.projection, Everywhere exampleUnion x) := by
  refine ⟨⟨(fun (c : Nat) => decide_eq_true (Nat.le_refl c)), fun _ _ _ => rfl⟩, exampleUEst_fair, by decide, by decide, by decide, by decide, by decide, ?_, ?_, ?_, ?_, ?_, ?_⟩
  · intro i hi j n hn hk x y hxy hx hy
    have : x = 0 ∨ x = 1 ∨ y = 0 ∨ y = 1 ∨ (i = 1 ∧ (j = 1 ∨ j = 2)) := by
      match i, hi, j with
      | 0, _, 0 => cases hn; simp at hx; omega
      | 0, _, j + 1 => simp [part, exampleUnion] at hn
      | 1, _, 0 => cases hn; simp at hx; omega
      | 1, _, 1 => simp
      | 1, _, 2 => simp
      | 1, _, j + 3 => simp [part, exampleUnion] at hn
      | 2, _, 0 => cases hn; simp at hx; omega
      | 2, _, j + 1 => simp [part, exampleUnion] at hn
      | i + 3, hi, _ => simp only [exampleUnion, List.length_cons, List.length_nil] at hi; omega
    rcases this with rfl | rfl | rfl | rfl | ⟨rfl, hj⟩
    · exact .inl (.inl (by simp [part, exampleUnion]))
    · exact .inl (.inl (by simp [part, exampleUnion]))
    · exact .inr (.inl (by simp [part, exampleUnion]))
    · exact .inr (.inl (by simp [part, exampleUnion]))
    · rcases hj with rfl | rfl
      · cases hn
        refine .inl (.inr (.inr (.inr ⟨2, _, by decide, rfl, ?_⟩)))
        simp at hx ⊢
        omega
      · cases hn
        refine .inl (.inr (.inr (.inr ⟨1, _, by decide, rfl, ?_⟩)))
        simp at hx ⊢
        omega
  · intro f hf g g' h
    simp only [exampleUnion, List.mem_cons, List.not_mem_nil, or_false, exists_eq_or_imp, exists_eq_left, false_or] at hf
    rcases hf with rfl | rfl
    · simp only [h 0 (by simp), h 1 (by simp)]
    · simp only [h 1 (by simp)]
  · intro p hp f hf g _
    simp only [exampleUnion, List.mem_cons, List.not_mem_nil, or_false] at hp
    rcases hp with rfl | rfl | rfl <;> simp at hf
    subst hf
    rfl
  · intro f hf g hg
    simp only [exampleUnion, List.mem_cons, List.not_mem_nil, or_false] at hf
    subst hf
    have key : ∀ x, x = 0 ∨ x = 1 → (g x).isSome = true := by
      intro x hx
      match he : g x with
      | some v => rfl
      | none =>
        have := (hg x (by rcases hx with rfl | rfl <;> simp)).2 he (.var 0, .const 10, .var 1) (by decide)
        rcases hx with rfl | rfl <;> simp at this
    simp only [key 0 (.inl rfl), key 1 (.inr rfl), Bool.and_self]
  · intro f hf x hx
    simp only [exampleUnion, List.mem_cons, List.not_mem_nil, or_false] at hf
    subst hf
    exact everywhere01 (by simpa using hx)
  · intro x hx
    exact everywhere01 (by simpa [exampleUnion] using hx)

/-- There is a plan for the example, and it prints the answers. -/
example : ∃ p, translateUnion exampleEst exampleUEst exampleUnion = .plans p ∧ (∃ out, UAnswers exampleUnionDb exampleUnion p out) := by
  obtain ⟨h1, h2, h3, h4, h5, h6, h7, h8, h9, h10, h11, h12, h13⟩ := exampleUnion_ok
  obtain ⟨p, a, b, _⟩ := C104_union_partial exampleEst exampleUEst h1 h2 exampleUnionDb h3 exampleUnion h4 h5 h6 h7 h8 h9 h10 h11 h12 h13
  exact ⟨p, a, b⟩

/-! ## Violations -/

/-- `SELECT ?0 ?1 { { ?0 10 ?2 } UNION { ?1 11 ?2 } }` -/
def unboundUnion : UQuery where
  parts := [([(.var 0, .const 10, .var 2)], []), ([(.var 1, .const 11, .var 2)], [])]
  filters := []
  projection := [0, 1]
  order := []

/-- **C104** is false if an alternative does not have a projected variable: for all estimates, the number 4294967295 is printed in its place. -/
theorem C104_unbound_violated (E : Est) (U : UEst E) (hE : E.Fair) (hU : UEst.Fair E U) :
    Spec.unionAnswers [(5, 10, 6), (7, 11, 8)] unboundUnion = [[some 5, none], [none, some 7]] ∧
    ∃ p out, translateUnion E U unboundUnion = .plans p ∧ UAnswers [(5, 10, 6), (7, 11, 8)] unboundUnion p out ∧
      (out.flatMap fun r => List.replicate r.1 r.2).Perm [[some 5, some 4294967295], [some 4294967295, some 7]] := by
  refine ⟨by decide +kernel, ?_⟩
  obtain ⟨p, h1, ⟨out, h2⟩, h3⟩ := C104_shown E U hE hU [(5, 10, 6), (7, 11, 8)] (by decide) unboundUnion (by decide) (by decide) (by decide) (by decide)
    (by
      intro i hi j n hn hk x y hxy hx hy
      match i, hi, j with
      | 0, _, 0 =>
        cases hn; simp at hx hy
        have : x = 0 ∨ y = 0 := by omega
        rcases this with rfl | rfl
        · exact .inl (.inl (by decide))
        · exact .inr (.inl (by decide))
      | 0, _, j + 1 => simp [part, unboundUnion] at hn
      | 1, _, 0 =>
        cases hn; simp at hx hy
        have : x = 1 ∨ y = 1 := by omega
        rcases this with rfl | rfl
        · exact .inl (.inl (by decide))
        · exact .inr (.inl (by decide))
      | 1, _, j + 1 => simp [part, unboundUnion] at hn
      | i + 2, hi, _ => simp only [unboundUnion, List.length_cons, List.length_nil] at hi; omega)
    (by intro f hf; simp [unboundUnion] at hf) (by intro p hp f hf; simp only [unboundUnion, List.mem_cons, List.not_mem_nil, or_false] at hp; rcases hp with rfl | rfl <;> simp at hf)
    (by intro f hf; simp [unboundUnion] at hf) (by intro f hf; simp [unboundUnion] at hf)
  refine ⟨p, out, h1, h2, (h3 out h2).trans (List.Perm.of_eq ?_)⟩
  decide +kernel

/-- **C104** is false if an alternative has no triple pattern, such as `{ } UNION { .. }`: there is no plan for it, and a null pointer is read. -/
theorem C104_empty_violated (E : Est) (U : UEst E) (u : UQuery) (h : ∃ p ∈ u.parts, p.1 = []) : translateUnion E U u = .undefined := by
  obtain ⟨p, hp, he⟩ := h
  obtain ⟨i, hi, rfl⟩ := List.mem_iff_getElem.1 hp
  have hnone : ∀ {α β : Type} (f : α → Option β) (l : List α), (∃ a ∈ l, f a = none) → allOf f l = none := by
    intro α β f l
    induction l with
    | nil => rintro ⟨a, h, _⟩; simp at h
    | cons b l ih =>
      rintro ⟨a, h, hn⟩
      rcases List.mem_cons.1 h with rfl | h
      · simp only [allOf, hn]
      · simp only [allOf, ih ⟨a, h, hn⟩]
        match f b with
        | some _ => rfl
        | none => rfl
  have : buildUnion E U u = .undefined := by
    unfold buildUnion
    rw [hnone _ _ ⟨i, List.mem_range.2 hi, ?_⟩]
    have hn : (part u i).nodes = [] := by simp only [part, List.getElem?_eq_getElem hi, Option.getD_some]; exact he
    unfold translateInt
    rw [if_neg (by rw [hn]; simp), hn]
    rfl
  unfold translateUnion translateUnionInt
  rw [this]

/-- `SELECT ?0 { { ?0 10 ?1 } }` -/
def oneUnion : UQuery where
  parts := [([(.var 0, .const 10, .var 1)], [])]
  filters := []
  projection := [0]
  order := []

/-- **C104** is false if only one alternative is left: `SELECT ?0 { { ?0 <a> ?1 } UNION { ?0 <b> ?1 } }` for a graph without `<b>`.  The second alternative is dropped (SemanticAnalysis.cpp:649-662), and `buildUnion` reads `solutions[1]`,
which is after the end of the vector. -/
theorem C104_unknown_violated :
    Analysis.transform (fun s : String => if s = "a" then some 10 else none)
      (.mk [] [] [] [[.mk [(.var 0, .const "a", .var 1)] [] [] [] [] [], .mk [(.var 0, .const "b", .var 1)] [] [] [] [] []]] [] []) =
      some (.mk [] [] [] [[.mk [(.var 0, .const 10, .var 1)] [] [] [] [] []]] [] []) ∧
    translateUnion exampleEst exampleUEst oneUnion = .undefined ∧ Spec.unionAnswers [(5, 10, 6)] oneUnion = [[some 5]] := by
  refine ⟨rfl, ?_, by decide +kernel⟩
  have : (match translateUnion exampleEst exampleUEst oneUnion with | .undefined => true | _ => false) = true := by decide +kernel
  match h : translateUnion exampleEst exampleUEst oneUnion with
  | .undefined => rfl
  | .none => rw [h] at this; cases this
  | .plans _ => rw [h] at this; cases this

end Trident.Sparql.PlanGen
