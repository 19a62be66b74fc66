import Verif.Sparql.MinusQuery
import Verif.Sparql.UnionQueryProofs
import Verif.Props.Algebra
import Verif.Props.UnionQuery
/-!
# Lemmas about queries with MINUS
-/
namespace Trident.Sparql.PlanGen
open Analysis (PElem)
open Spec (value fits In excludes solutions)

variable {E : Est}

/-! ## Plans of the groups -/

theorem tableOf_eq {scans : Nat → List (Kind × Ord × Bool)} {q : Query} (h : ∀ i < q.nodes.length, scans i = scanList q i) : ∀ n, tableOf E scans q n = table E q n := by
  intro n
  induction n with
  | zero =>
    simp only [tableOf, table]
    congr 1
    refine List.map_congr_left fun i hi => ?_
    rw [h i (List.mem_range.1 hi)]
    rfl
  | succ n ih => simp only [tableOf, table, ih]

theorem translateIntOf_eq {scans : Nat → List (Kind × Ord × Bool)} {q : Query} (h : ∀ i < q.nodes.length, scans i = scanList q i) : translateIntOf E scans q = translateInt E q := by
  unfold translateIntOf translateInt
  rw [tableOf_eq h]
  by_cases hw : q.nodes.length > maxWidth
  · rw [if_pos hw, if_pos hw]
  · rw [if_neg hw, if_neg hw]
    match q.nodes with
    | [] => rfl
    | _ :: _ => rfl

/-- A variable of a group after MINUS that is in two of its patterns, or in a pattern and a filter, is also outside. -/
def Visible (m : MQuery) (k : Nat) : Prop :=
  ∀ i x, x ∈ ((minusPart m k).node i).vars → ((∃ f ∈ (m.group k).2, x ∈ f.vars) ∨ ∃ j < (m.group k).1.length, j ≠ i ∧ x ∈ ((minusPart m k).node j).vars) → outside m x = true

theorem outside_iff {m : MQuery} {k x : Nat} : outside m x = true ↔ x ∈ (minusPart m k).projection ∨ x ∈ (minusPart m k).order := by
  simp only [outside, minusPart, Bool.or_eq_true, List.contains_eq_mem, decide_eq_true_eq, List.any_eq_true, List.mem_append, List.mem_flatMap]
  constructor
  · rintro (((h | h) | ⟨f, hf, h⟩) | ⟨n, hn, h⟩)
    · exact .inl h
    · exact .inr (.inl (.inl h))
    · exact .inr (.inl (.inr ⟨f, hf, h⟩))
    · exact .inr (.inr ⟨n, hn, h⟩)
  · rintro (h | (h | ⟨f, hf, h⟩) | ⟨n, hn, h⟩)
    · exact .inl (.inl (.inl h))
    · exact .inl (.inl (.inr h))
    · exact .inl (.inr ⟨f, hf, h⟩)
    · exact .inr ⟨n, hn, h⟩

theorem used_of_outside {m : MQuery} {k i x : Nat} (h : outside m x = true) : used (minusPart m k) i x = true := by
  rcases (outside_iff (k := k)).1 h with h | h
  · unfold used; simp [h]
  · unfold used; simp [h]

theorem outside_used {m : MQuery} {k : Nat} (hv : Visible m k) {i x : Nat} (hx : x ∈ ((minusPart m k).node i).vars) : used (minusPart m k) i x = outside m x := by
  by_cases ho : outside m x = true
  · rw [ho, used_of_outside ho]
  · rw [Bool.eq_iff_iff]
    refine ⟨fun h => ?_, fun h => absurd h ho⟩
    unfold used at h
    simp only [Bool.or_eq_true, List.contains_eq_mem, decide_eq_true_eq, List.any_eq_true, List.mem_range, Bool.and_eq_true, bne_iff_ne] at h
    rcases h with ((h | h) | ⟨f, hf, h⟩) | ⟨j, hj, hji, h⟩
    · exact (outside_iff (k := k)).2 (.inl h)
    · exact (outside_iff (k := k)).2 (.inr h)
    · exact hv i x hx (.inl ⟨f, hf, h⟩)
    · exact hv i x hx (.inr ⟨j, hj, hji, h⟩)

theorem minusScans_eq {m : MQuery} {k : Nat} (hv : Visible m k) (i : Nat) : minusScans m k i = scanList (minusPart m k) i := by
  have : ∀ s, s < 3 → unusedOutside m k i s = unusedAt (minusPart m k) i s := by
    intro s hs
    unfold unusedOutside unusedAt
    match h : ((minusPart m k).node i).varAt s with
    | none => rfl
    | some x => simp only [outside_used hv (mem_nodeVars.2 ⟨s, hs, h⟩)]
  unfold minusScans scanList
  rw [this 0 (by omega), this 1 (by omega), this 2 (by omega)]

theorem translateGroup_eq {m : MQuery} {k : Nat} (hv : Visible m k) : translateGroup E m k = translateInt E (minusPart m k) := translateIntOf_eq fun i _ => minusScans_eq hv i

/-- Plans with a list of MINUS, the last one first. -/
def layers (p : Plan) : List (Nat × Plan) → MPlan
  | [] => .main p
  | (k, q) :: l => .minus (layers p l) k q

theorem addMinuses_layers (hE : E.Fair) {m : MQuery} {p : Plan} (hv : ∀ k < m.minuses.length, Visible m k) (hne : ∀ k < m.minuses.length, (m.group k).1 ≠ []) (hw : ∀ k < m.minuses.length, (m.group k).1.length ≤ 64) :
    ∀ (ks : List Nat) (l : List (Nat × Plan)), (∀ k ∈ ks, k < m.minuses.length) → (∀ a ∈ l, Final (minusPart m a.1) a.2) →
      ∃ l', addMinuses E m ks (layers p l) = .plans (layers p l') ∧ l'.map (·.1) = ks.reverse ++ l.map (·.1) ∧ ∀ a ∈ l', Final (minusPart m a.1) a.2 := by
  intro ks
  induction ks with
  | nil => intro l _ hl; exact ⟨l, rfl, rfl, hl⟩
  | cons k ks ih =>
    intro l hks hl
    have hk := hks k (by simp)
    obtain ⟨a, as, h, hf⟩ := translateInt_final hE (q := minusPart m k) (hne k hk) (hw k hk)
    have hg : translateGroup E m k = some (a :: as) := by rw [translateGroup_eq (hv k hk), h]
    obtain ⟨l', h1, h2, h3⟩ := ih ((k, a.plan) :: l) (fun j hj => hks j (List.mem_cons_of_mem _ hj)) (by
      intro b hb
      rcases List.mem_cons.1 hb with rfl | hb
      · exact hf a (by simp)
      · exact hl b hb)
    refine ⟨l', ?_, by rw [h2]; simp, h3⟩
    rw [addMinuses, hg]
    exact h1

/-! ## Variables -/

/-- What the variables of a query with MINUS need to have: a variable of the group and of a group after MINUS has a register in each of its patterns, and variables of two groups after MINUS are in the group. -/
structure Shared (m : MQuery) : Prop where
  used : ∀ k < m.minuses.length, ∀ x, In x (m.group k).1 → ∀ i, x ∈ (m.main.node i).vars → used m.main i x = true
  twice : ∀ k < m.minuses.length, ∀ j < m.minuses.length, k ≠ j → ∀ x, In x (m.group k).1 → In x (m.group j).1 → In x m.nodes

/-- The layers are those of different groups. -/
structure Layers (m : MQuery) (p : Plan) (l : List (Nat × Plan)) : Prop where
  base : Final m.main p
  final : ∀ a ∈ l, Final (minusPart m a.1) a.2
  lt : ∀ a ∈ l, a.1 < m.minuses.length
  nodup : (l.map (·.1)).Nodup

theorem Layers.tail {m : MQuery} {p : Plan} {a : Nat × Plan} {l : List (Nat × Plan)} (h : Layers m p (a :: l)) : Layers m p l :=
  ⟨h.base, fun b hb => h.final b (List.mem_cons_of_mem _ hb), fun b hb => h.lt b (List.mem_cons_of_mem _ hb), (List.nodup_cons.1 h.nodup).2⟩

theorem mem_layers_vars {m : MQuery} {p : Plan} {x : Nat} : ∀ {l : List (Nat × Plan)}, Layers m p l → (x ∈ (layers p l).vars m ↔ In x m.nodes ∨ ∃ a ∈ l, In x (m.group a.1).1) := by
  intro l
  induction l with
  | nil => intro h; simp only [layers, MPlan.vars, final_vars h.base]; simp [MQuery.main]
  | cons a l ih =>
    intro h
    obtain ⟨k, q⟩ := a
    have hq : x ∈ q.vars (minusPart m k) ↔ In x (m.group k).1 := final_vars (h.final (k, q) (by simp)) x
    simp only [layers, MPlan.vars, List.mem_append, ih h.tail, hq, List.mem_cons, exists_eq_or_imp]
    constructor
    · rintro ((h | h) | h)
      · exact .inl h
      · exact .inr (.inr h)
      · exact .inr (.inl h)
    · rintro (h | h | h)
      · exact .inl (.inl h)
      · exact .inr h
      · exact .inl (.inr h)

theorem mem_toCheck {m : MQuery} (hs : Shared m) {p : Plan} {k : Nat} {q : Plan} {l : List (Nat × Plan)} (h : Layers m p ((k, q) :: l)) {x : Nat} :
    x ∈ toCheck m (layers p l) k q ↔ In x m.nodes ∧ In x (m.group k).1 := by
  unfold toCheck
  rw [mem_setOf, List.mem_filter, List.contains_eq_mem, decide_eq_true_eq, mem_layers_vars h.tail, final_vars (h.final (k, q) (by simp)) x]
  show In x (m.group k).1 ∧ _ ↔ _
  constructor
  · rintro ⟨h1, h2 | ⟨a, ha, h2⟩⟩
    · exact ⟨h2, h1⟩
    · refine ⟨hs.twice k (h.lt (k, q) (by simp)) a.1 (h.lt a (List.mem_cons_of_mem _ ha)) ?_ x h1 h2, h1⟩
      rintro rfl
      exact (List.nodup_cons.1 h.nodup).1 (List.mem_map.2 ⟨a, ha, rfl⟩)
  · rintro ⟨h1, h2⟩
    exact ⟨h2, .inl h1⟩

/-- Variables with a register in each pattern. -/
def Kept (m : MQuery) (proj : List Nat) : Prop := ∀ x ∈ proj, ∀ i, x ∈ (m.main.node i).vars → used m.main i x = true

theorem Kept.check {m : MQuery} (hs : Shared m) {p : Plan} {k : Nat} {q : Plan} {l : List (Nat × Plan)} (h : Layers m p ((k, q) :: l)) {proj : List Nat} (hp : Kept m proj) :
    Kept m (proj ++ toCheck m (layers p l) k q) := by
  intro x hx i hi
  rcases List.mem_append.1 hx with hx | hx
  · exact hp x hx i hi
  · exact hs.used k (h.lt (k, q) (by simp)) x ((mem_toCheck hs h).1 hx).2 i hi

theorem kept_used {m : MQuery} {proj : List Nat} (hp : Kept m proj) (p : Plan) : Used m.main proj p := fun x hx i _ hi => hp x hx i hi

theorem mem_mcols {m : MQuery} (hs : Shared m) {p : Plan} {x : Nat} : ∀ {l : List (Nat × Plan)}, Layers m p l → ∀ {proj : List Nat}, Kept m proj → x ∈ proj →
    (x ∈ mcols m proj (layers p l) ↔ In x m.nodes) := by
  intro l
  induction l with
  | nil =>
    intro h proj hp hx
    obtain ⟨hw, _, _⟩ := final_wf h.base
    simp only [layers, mcols, mem_cols hw (kept_used hp p), final_vars h.base]
    exact ⟨fun h => h.2, fun h => ⟨hx, h⟩⟩
  | cons a l ih =>
    intro h proj hp hx
    obtain ⟨k, q⟩ := a
    simp only [layers, mcols]
    exact ih h.tail (hp.check hs h) (List.mem_append_left _ hx)

theorem check_used {m : MQuery} (hs : Shared m) {p : Plan} {k : Nat} {q : Plan} {l : List (Nat × Plan)} (h : Layers m p ((k, q) :: l)) : Used (minusPart m k) (toCheck m (layers p l) k q) q := by
  intro x hx i _ _
  refine used_of_outside ?_
  obtain ⟨⟨n, hn, hxn⟩, _⟩ := (mem_toCheck hs h).1 hx
  unfold outside
  simp only [Bool.or_eq_true, List.any_eq_true, List.contains_eq_mem, decide_eq_true_eq]
  exact .inr ⟨n, hn, mem_node_vars.2 hxn⟩

/-! ## Rows -/

/-- The key of a row that has the values of a function. -/
theorem key_idxOf {names cs : List Nat} (h : ∀ x ∈ cs, x ∈ names) (f : Nat → Nat) : Algebra.key (cs.map names.idxOf) (names.map f) = cs.map f := by
  unfold Algebra.key
  rw [List.map_map]
  refine List.map_congr_left fun x hx => ?_
  have hlt := List.idxOf_lt_length_iff.2 (h x hx)
  simp only [Function.comp, List.getElem?_map, List.getElem?_eq_getElem hlt, Option.map_some, Option.getD_some, List.getElem_idxOf hlt]

/-- The rows that are left. -/
theorem minus_filter {lc rc : List Nat} (hl : lc.length = rc.length) (hc : rc ≠ []) (main sub : List Row) :
    Algebra.minus lc rc main sub = some (main.filter fun r => !(sub.any fun s => Algebra.key lc r.2 == Algebra.key rc s.2)) := by
  match main with
  | [] => rfl
  | r :: rs =>
    obtain ⟨f, s, h1, h2⟩ := Algebra.load_spec rc hc sub [] [] 0 (by simp) (by simp)
    unfold Algebra.minus
    simp only [h1, Option.map_some, Algebra.keep_eq]
    congr 1
    refine List.filter_congr fun a _ => ?_
    congr 1
    rw [Bool.eq_iff_iff, hl, h2, List.any_eq_true]
    constructor
    · rintro (h | h)
      · rw [Algebra.present_iff] at h; obtain ⟨i, hi, _⟩ := h; cases hi
      · obtain ⟨b, hb, e⟩ := List.mem_map.1 h
        exact ⟨b, hb, by rw [e]; simp⟩
    · rintro ⟨b, hb, e⟩
      exact .inr (List.mem_map.2 ⟨b, hb, (by simpa using e : _ = _).symm⟩)

/-- The solutions agree on the common variables. -/
def agrees (m : MQuery) (k : Nat) (c d : Choice) : Bool := (m.nodes.flatMap Node.vars).all fun x => !decide (In x (m.group k).1) || value c x == value d x

theorem mem_flat_vars {ns : List Node} {x : Nat} : x ∈ ns.flatMap Node.vars ↔ In x ns := by
  rw [List.mem_flatMap]
  exact ⟨fun ⟨n, h1, h2⟩ => ⟨n, h1, mem_node_vars.1 h2⟩, fun ⟨n, h1, h2⟩ => ⟨n, h1, mem_node_vars.2 h2⟩⟩

theorem agrees_iff {m : MQuery} {k : Nat} {c d : Choice} : agrees m k c d = true ↔ ∀ x, In x m.nodes → In x (m.group k).1 → value c x = value d x := by
  unfold agrees
  rw [List.all_eq_true]
  constructor
  · intro h x h1 h2
    have := h x (mem_flat_vars.2 h1)
    simpa [h2] using this
  · intro h x h1
    by_cases h2 : In x (m.group k).1
    · simp [h x (mem_flat_vars.1 h1) h2]
    · simp [h2]

/-- The group after MINUS has a solution that agrees. -/
def removed (db : List Triple) (m : MQuery) (c : Choice) (k : Nat) : Bool := (solutions db (m.group k)).any (agrees m k c)

theorem cvars_sols {db : List Triple} {q : Query} {p : Plan} (h : Final q p) {c : Choice} (hc : c ∈ sols db q p) (x : Nat) : x ∈ cvars c ↔ In x q.nodes := by
  rw [(mem_sols hc).2, final_vars h]

/-- The solutions of a plan and those of the group agree with the same solutions. -/
theorem removed_sols {db : List Triple} {m : MQuery} {k : Nat} (hq : Fine (minusPart m k)) {q : Plan} (hf : Final (minusPart m k) q) (c : Choice) :
    (sols db (minusPart m k) q).any (agrees m k c) = removed db m c k := by
  have hp := sols_values (db := db) hq hf ((m.group k).1.flatMap Node.vars)
  have key : ∀ a b : Choice, ((m.group k).1.flatMap Node.vars).map (value a) = ((m.group k).1.flatMap Node.vars).map (value b) → agrees m k c a = true → agrees m k c b = true := by
    intro a b hab ha
    rw [agrees_iff] at ha ⊢
    intro x h1 h2
    rw [ha x h1 h2]
    exact List.map_inj_left.1 hab x (mem_flat_vars.2 h2)
  unfold removed
  rw [Bool.eq_iff_iff, List.any_eq_true, List.any_eq_true]
  constructor
  · rintro ⟨d, hd, h⟩
    obtain ⟨e, he, h2⟩ := List.mem_map.1 (hp.mem_iff.1 (List.mem_map_of_mem hd))
    exact ⟨e, he, key d e h2.symm h⟩
  · rintro ⟨d, hd, h⟩
    obtain ⟨e, he, h2⟩ := List.mem_map.1 (hp.mem_iff.2 (List.mem_map_of_mem hd))
    exact ⟨e, he, key d e h2.symm h⟩

theorem mrows {db : List Triple} {m : MQuery} (hdb : ∀ t ∈ db, t.1 < 2 ^ 64 ∧ t.2.1 < 2 ^ 64 ∧ t.2.2 < 2 ^ 64) (hs : Shared m) (hm : Fine m.main) (hq : ∀ k, Fine (minusPart m k))
    (hcom : ∀ k < m.minuses.length, ∃ x, In x m.nodes ∧ In x (m.group k).1) {p : Plan} :
    ∀ {l : List (Nat × Plan)}, Layers m p l → ∀ {proj : List Nat}, Kept m proj → ∀ {rows : List Row}, MExecOn (ScanRows db) m proj (layers p l) rows →
      (∀ r ∈ rows, r.1 ≠ 0) ∧ (∀ x ∈ mcols m proj (layers p l), In x m.nodes) ∧
      (expand rows).Perm (((sols db m.main p).filter fun c => l.all fun a => !removed db m c a.1).map fun c => (mcols m proj (layers p l)).map (val c)) := by
  intro l
  induction l with
  | nil =>
    intro h proj hp rows hr
    obtain ⟨hw, _, _⟩ := final_wf h.base
    cases hr with
    | main hr =>
      have := exec_rows hm hdb hr hw (kept_used hp p)
      refine ⟨this.pos, fun x hx => ?_, ?_⟩
      · simp only [layers, mcols, mem_cols hw (kept_used hp p), final_vars h.base] at hx
        exact hx.2
      · have e : ((sols db m.main p).filter fun c => ([] : List (Nat × Plan)).all fun a => !removed db m c a.1) = sols db m.main p := List.filter_eq_self.2 fun _ _ => rfl
        rw [e]
        exact this.perm
  | cons a l ih =>
    intro h proj hp rows hr
    obtain ⟨k, q⟩ := a
    have hk := h.lt (k, q) (by simp)
    have hfk := h.final (k, q) (by simp)
    cases hr with
    | @minus _ _ _ _ rows' sub out h1 h2 hb h3 =>
      obtain ⟨i1, i2, i3⟩ := ih h.tail (hp.check hs h) h1
      obtain ⟨hw, _, _⟩ := final_wf hfk
      have hsub := exec_rows (hq k) hdb h2 hw (check_used hs h)
      obtain ⟨x0, hx1, hx2⟩ := hcom k hk
      have hne : toCheck m (layers p l) k q ≠ [] := List.ne_nil_of_mem ((mem_toCheck hs h).2 ⟨hx1, hx2⟩)
      rw [minus_filter (by simp) (by simpa using hne)] at h3
      injection h3 with h3
      subst h3
      refine ⟨fun r hr => i1 r (List.mem_filter.1 hr).1, i2, ?_⟩
      show (expand _).Perm ((List.filter _ _).map fun c => (mcols m (proj ++ toCheck m (layers p l) k q) (layers p l)).map (val c))
      rw [expand_filter fun t => !(sub.any fun s => Algebra.key ((toCheck m (layers p l) k q).map (mcols m (proj ++ toCheck m (layers p l) k q) (layers p l)).idxOf) t ==
        Algebra.key ((toCheck m (layers p l) k q).map (cols (minusPart m k) (toCheck m (layers p l) k q) q).idxOf) s.2)]
      refine (i3.filter _).trans (List.Perm.of_eq ?_)
      rw [List.filter_map, List.filter_filter]
      congr 1
      refine List.filter_congr fun c hc => ?_
      rw [List.all_cons]
      congr 1
      simp only [Function.comp]
      congr 1
      rw [key_idxOf fun x hx => (hb x hx).1, ← removed_sols (hq k) hfk c, Bool.eq_iff_iff, List.any_eq_true, List.any_eq_true]
      have hval : ∀ d ∈ sols db (minusPart m k) q, ((toCheck m (layers p l) k q).map (val c) = (toCheck m (layers p l) k q).map (val d) ↔ agrees m k c d = true) := by
        intro d hd
        rw [agrees_iff, List.map_inj_left]
        have e : ∀ x, In x m.nodes → In x (m.group k).1 → value c x = some (val c x) ∧ value d x = some (val d x) := fun x h1 h2 =>
          ⟨value_eq_val ((cvars_sols h.base hc x).2 h1), value_eq_val ((cvars_sols hfk hd x).2 h2)⟩
        constructor
        · intro h4 x h5 h6
          rw [(e x h5 h6).1, (e x h5 h6).2, h4 x ((mem_toCheck hs h).2 ⟨h5, h6⟩)]
        · intro h4 x hx
          obtain ⟨h5, h6⟩ := (mem_toCheck hs h).1 hx
          have := h4 x h5 h6
          rw [(e x h5 h6).1, (e x h5 h6).2] at this
          exact Option.some.inj this
      constructor
      · rintro ⟨s, hs1, hs2⟩
        obtain ⟨d, hd, he⟩ := Rows.shape hsub.pos hsub.perm hs1
        rw [he, key_idxOf fun x hx => (hb x hx).2] at hs2
        exact ⟨d, hd, (hval d hd).1 (by simpa using hs2)⟩
      · rintro ⟨d, hd, hs2⟩
        have : (cols (minusPart m k) (toCheck m (layers p l) k q) q).map (val d) ∈ expand sub := hsub.perm.mem_iff.2 (List.mem_map_of_mem hd)
        obtain ⟨s, hs1, _, he⟩ := mem_expand.1 this
        refine ⟨s, hs1, ?_⟩
        rw [he, key_idxOf fun x hx => (hb x hx).2]
        simpa using (hval d hd).2 hs2

theorem mexec_mono {S : Query → Kind → Ord → Bool → Nat → List Nat → List Row → Prop} {db : List Triple} (hS : ∀ q : Query, (∀ n ∈ q.nodes, n.vars.Nodup) → ScansOf (S q) db q) {m : MQuery} (hm : Fine m.main)
    (hq : ∀ k, Fine (minusPart m k)) {p : Plan} : ∀ {l : List (Nat × Plan)}, Layers m p l → ∀ {proj : List Nat} {rows : List Row}, MExecOn S m proj (layers p l) rows → MExecOn (ScanRows db) m proj (layers p l) rows := by
  intro l
  induction l with
  | nil =>
    intro h proj rows hr
    cases hr with
    | main hr => exact .main (exec_mono (hS _ hm.nodup) hr (final_wf h.base).1)
  | cons a l ih =>
    intro h proj rows hr
    obtain ⟨k, q⟩ := a
    cases hr with
    | minus h1 h2 hb h3 => exact .minus (ih h.tail h1) (exec_mono (hS _ (hq k).nodup) h2 (final_wf (h.final (k, q) (by simp))).1) hb h3

theorem mexec_exists {S : Query → Kind → Ord → Bool → Nat → List Nat → List Row → Prop} {db : List Triple} (hS : ∀ q : Query, (∀ n ∈ q.nodes, n.vars.Nodup) → ScansOf (S q) db q) {m : MQuery} (hdb : ∀ t ∈ db, t.1 < 2 ^ 64 ∧ t.2.1 < 2 ^ 64 ∧ t.2.2 < 2 ^ 64) (hs : Shared m) (hm : Fine m.main) (hq : ∀ k, Fine (minusPart m k))
    (hcom : ∀ k < m.minuses.length, ∃ x, In x m.nodes ∧ In x (m.group k).1) (ht : Spec.Tied m.main) (ht' : ∀ k < m.minuses.length, Spec.Tied (minusPart m k))
    (hsafe : ∀ f ∈ m.filters, Spec.Safe db m.nodes f) (hsafe' : ∀ k < m.minuses.length, ∀ f ∈ (m.group k).2, Spec.Safe db (m.group k).1 f) {p : Plan} :
    ∀ {l : List (Nat × Plan)}, Layers m p l → ∀ {proj : List Nat}, Kept m proj → ∃ rows, MExecOn S m proj (layers p l) rows := by
  intro l
  induction l with
  | nil =>
    intro h proj hp
    obtain ⟨hw, hW, _⟩ := final_wf h.base
    obtain ⟨rows, hr⟩ := exec_exists_on (hS _ hm.nodup) hm ht hdb hsafe hw hW (kept_used hp p)
    exact ⟨rows, .main hr⟩
  | cons a l ih =>
    intro h proj hp
    obtain ⟨k, q⟩ := a
    have hk := h.lt (k, q) (by simp)
    have hfk := h.final (k, q) (by simp)
    obtain ⟨hw, hW, _⟩ := final_wf hfk
    have hp' := hp.check hs h
    obtain ⟨rows, hr⟩ := ih h.tail hp'
    obtain ⟨sub, hsub⟩ := exec_exists_on (hS _ (hq k).nodup) (hq k) (ht' k hk) hdb (hsafe' k hk) hw hW (check_used hs h)
    obtain ⟨x0, hx1, hx2⟩ := hcom k hk
    have hne : toCheck m (layers p l) k q ≠ [] := List.ne_nil_of_mem ((mem_toCheck hs h).2 ⟨hx1, hx2⟩)
    refine ⟨_, .minus hr hsub ?_ (minus_filter (by simp) (by simpa using hne) _ _)⟩
    intro x hx
    obtain ⟨h1, h2⟩ := (mem_toCheck hs h).1 hx
    refine ⟨(mem_mcols hs h.tail hp' (List.mem_append_right _ hx)).2 h1, ?_⟩
    rw [mem_cols hw (check_used hs h), final_vars hfk]
    exact ⟨hx, h2⟩

/-! ## The specification -/

theorem excludes_iff {c d : Choice} : excludes c d = true ↔ (∃ x ∈ cvars c, x ∈ cvars d) ∧ ∀ x ∈ cvars c, x ∈ cvars d → value c x = value d x := by
  have hmem : ∀ {x : Nat}, x ∈ cvars c ↔ ∃ v, (PElem.var x, v) ∈ c := mem_cvars
  unfold excludes
  rw [Bool.and_eq_true, List.any_eq_true, List.all_eq_true]
  constructor
  · rintro ⟨⟨⟨e, v⟩, h1, h2⟩, h3⟩
    refine ⟨?_, ?_⟩
    · match e, h1, h2 with
      | .var x, h1, h2 => exact ⟨x, hmem.2 ⟨v, h1⟩, value_isSome.1 (Option.isSome_iff_exists.1 h2)⟩
    · intro x hx hd
      obtain ⟨v, hv⟩ := hmem.1 hx
      have := h3 _ hv
      simp only [Bool.or_eq_true, beq_iff_eq] at this
      rcases this with h | h
      · obtain ⟨w, hw⟩ := value_isSome.2 hd
        rw [hw] at h; cases h
      · exact h.symm
  · rintro ⟨⟨x, hx, hd⟩, h⟩
    refine ⟨?_, ?_⟩
    · obtain ⟨v, hv⟩ := hmem.1 hx
      exact ⟨_, hv, Option.isSome_iff_exists.2 (value_isSome.2 hd)⟩
    · rintro ⟨e, v⟩ he
      match e, he with
      | .const _, _ => rfl
      | .var y, he =>
        simp only [Bool.or_eq_true, beq_iff_eq]
        by_cases hy : y ∈ cvars d
        · exact .inr (h y (hmem.2 ⟨v, he⟩) hy).symm
        · exact .inl (value_none hy)

theorem cvars_solutions {db : List Triple} {g : List Node × List Filt} {c : Choice} (h : c ∈ solutions db g) (x : Nat) : x ∈ cvars c ↔ In x g.1 := by
  rw [cvars_choices (List.mem_filter.1 h).1, mem_flat_vars]

theorem excludes_agrees {db : List Triple} {m : MQuery} {k : Nat} (hcom : ∃ x, In x m.nodes ∧ In x (m.group k).1) {c d : Choice} (hc : c ∈ solutions db (m.nodes, m.filters)) (hd : d ∈ solutions db (m.group k)) :
    excludes c d = agrees m k c d := by
  rw [Bool.eq_iff_iff, excludes_iff, agrees_iff]
  have h1 := cvars_solutions hc
  have h2 := cvars_solutions hd
  constructor
  · rintro ⟨_, h⟩ x hx hy
    exact h x ((h1 x).2 hx) ((h2 x).2 hy)
  · intro h
    obtain ⟨x, hx, hy⟩ := hcom
    exact ⟨⟨x, (h1 x).2 hx, (h2 x).2 hy⟩, fun x hx hy => h x ((h1 x).1 hx) ((h2 x).1 hy)⟩

theorem groups_eq (m : MQuery) : (List.range m.minuses.length).map m.group = m.minuses := by
  refine List.ext_getElem (by simp) fun i h1 h2 => ?_
  simp [MQuery.group, List.getElem?_eq_getElem h2]

/-- The solutions that are left, by the common variables. -/
theorem minusSolutions_eq {db : List Triple} {m : MQuery} (hcom : ∀ k < m.minuses.length, ∃ x, In x m.nodes ∧ In x (m.group k).1) :
    Spec.minusSolutions db m = (solutions db (m.nodes, m.filters)).filter fun c => (List.range m.minuses.length).all fun k => !removed db m c k := by
  unfold Spec.minusSolutions
  refine List.filter_congr fun c hc => ?_
  conv => lhs; rw [← groups_eq m]
  rw [List.all_map, Bool.eq_iff_iff, List.all_eq_true, List.all_eq_true]
  have key : ∀ k < m.minuses.length, (solutions db (m.group k)).any (excludes c) = removed db m c k := by
    intro k hk
    unfold removed
    rw [Bool.eq_iff_iff, List.any_eq_true, List.any_eq_true]
    exact ⟨fun ⟨d, hd, h⟩ => ⟨d, hd, excludes_agrees (hcom k hk) hc hd ▸ h⟩, fun ⟨d, hd, h⟩ => ⟨d, hd, (excludes_agrees (hcom k hk) hc hd).symm ▸ h⟩⟩
  constructor
  · intro h k hk
    have := h k hk
    simp only [Function.comp] at this
    rwa [key k (List.mem_range.1 hk)] at this
  · intro h k hk
    simp only [Function.comp]
    rw [key k (List.mem_range.1 hk)]
    exact h k hk

end Trident.Sparql.PlanGen
