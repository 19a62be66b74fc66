import Verif.Sparql.MinusQueryProofs
/-!
# C105: Queries with MINUS

Statements about `translateMinus` (Sparql/MinusQuery.lean) and the operators of its plans; the answers are `Spec.minusAnswers` (Sparql/MinusQuerySpec.lean).
-/
namespace Trident.Sparql.PlanGen
open Analysis (PElem)
open Spec (value fits In Elsewhere)

deriving instance DecidableEq for MPlan
deriving instance DecidableEq for Outcome

variable {E : Est}

/-- The variable is in the SELECT part, in ORDER BY, or in a filter or pattern of the group, but not only in a group after MINUS. -/
def Spec.Outside (m : MQuery) (x : Nat) : Prop := x ∈ m.projection ∨ x ∈ m.order ∨ (∃ f ∈ m.filters, x ∈ f.vars) ∨ In x m.nodes

/-- The variable is in two patterns, or in a pattern and a filter, of the group. -/
def Spec.Twice (g : List Node × List Filt) (x : Nat) : Prop :=
  ∃ (i : Nat) (n : Node), g.1[i]? = some n ∧ .var x ∈ [n.1, n.2.1, n.2.2] ∧ ((∃ f ∈ g.2, x ∈ f.vars) ∨ ∃ (j : Nat) (n' : Node), j ≠ i ∧ g.1[j]? = some n' ∧ .var x ∈ [n'.1, n'.2.1, n'.2.2])

theorem outside_spec {m : MQuery} {x : Nat} (h : Spec.Outside m x) : outside m x = true := by
  refine (outside_iff (k := 0)).2 ?_
  simp only [minusPart, List.mem_append, List.mem_flatMap]
  rcases h with h | h | h | ⟨n, h1, h2⟩
  · exact .inl h
  · exact .inr (.inl (.inl h))
  · exact .inr (.inl (.inr h))
  · exact .inr (.inr ⟨n, h1, mem_node_vars.2 h2⟩)

theorem node_in {q : Query} {i x : Nat} (h : x ∈ (q.node i).vars) : ∃ n, q.nodes[i]? = some n ∧ .var x ∈ [n.1, n.2.1, n.2.2] := by
  unfold Query.node at h
  match hn : q.nodes[i]? with
  | none => rw [hn] at h; simp [Node.vars, Node.varAt, Node.slot] at h
  | some n => rw [hn] at h; exact ⟨n, rfl, mem_node_vars.1 h⟩

theorem group_mem {m : MQuery} {k : Nat} (hk : k < m.minuses.length) : m.group k ∈ m.minuses := by
  simp only [MQuery.group, List.getElem?_eq_getElem hk, Option.getD_some]
  exact List.getElem_mem hk

/-- The plan: that of the group, and a MINUS for each group after MINUS. -/
theorem minus_plan (hE : E.Fair) {m : MQuery} (s : Stale E) (hs : s.next = []) (hne : m.nodes ≠ []) (hwidth : m.nodes.length ≤ 64) (hne' : ∀ g ∈ m.minuses, g.1 ≠ []) (hwidth' : ∀ g ∈ m.minuses, g.1.length ≤ 64)
    (hv : ∀ k < m.minuses.length, Visible m k) : ∃ p l, translateMinus E s m = .plans (layers p l) ∧ Layers m p l ∧ l.map (·.1) = (List.range m.minuses.length).reverse := by
  unfold translateMinus
  match hm : m.minuses with
  | [] =>
    obtain ⟨p, hp, hf⟩ := translate_final hE (q := m.main) hne hwidth
    simp only [hp]
    exact ⟨p, [], rfl, ⟨hf, by simp, by simp, by simp⟩, rfl⟩
  | g :: gs =>
    obtain ⟨a, as, ha, hf⟩ := translateInt_final hE (q := m.main) hne hwidth
    simp only [ha]
    obtain ⟨l, h1, h2, h3⟩ := addMinuses_layers hE (p := a.plan) hv (fun k hk => hne' _ (group_mem hk)) (fun k hk => hwidth' _ (group_mem hk)) (List.range m.minuses.length) [] (fun k hk => List.mem_range.1 hk) (by simp)
    rw [hm] at h1
    have h1' : addMinuses E m (List.range (g :: gs).length) (.main a.plan) = .plans (layers a.plan l) := h1
    rw [h1', hs]
    rw [List.map_nil, List.append_nil] at h2
    refine ⟨a.plan, l, rfl, ⟨hf a (by simp), h3, ?_, ?_⟩, by rw [h2, hm]⟩
    · intro b hb
      have : b.1 ∈ l.map (·.1) := List.mem_map_of_mem hb
      rw [h2] at this
      exact List.mem_range.1 (List.mem_reverse.1 this)
    · rw [h2]; exact List.pairwise_reverse.2 (List.nodup_range.imp fun h => Ne.symm h)

/-- `C105_minus_partial` for scans that return the rows of the triples. -/
theorem minus_on {S : Query → Kind → Ord → Bool → Nat → List Nat → List Row → Prop} (E : Est) (hE : E.Fair) (s : Stale E) (hs : s.next = []) (db : List Triple) (hdb : ∀ t ∈ db, t.1 < 2 ^ 64 ∧ t.2.1 < 2 ^ 64 ∧ t.2.2 < 2 ^ 64)
    (hS : ∀ q : Query, (∀ n ∈ q.nodes, n.vars.Nodup) → ScansOf (S q) db q) (m : MQuery) (hne : m.nodes ≠ []) (hwidth : m.nodes.length ≤ 64) (hne' : ∀ g ∈ m.minuses, g.1 ≠ []) (hwidth' : ∀ g ∈ m.minuses, g.1.length ≤ 64)
    (hvars : ∀ n ∈ m.nodes, n.vars.Nodup) (hvars' : ∀ g ∈ m.minuses, ∀ n ∈ g.1, n.vars.Nodup) (htied : Spec.Tied m.main) (htied' : ∀ k < m.minuses.length, Spec.Tied (minusPart m k))
    (hfilters : ∀ f, f ∈ m.filters ∨ (∃ g ∈ m.minuses, f ∈ g.2) → ∀ g g' : Nat → Option Nat, (∀ x ∈ f.vars, g x = g' x) → f.holds g = f.holds g')
    (hsafe : ∀ f ∈ m.filters, Spec.Safe db m.nodes f) (hsafe' : ∀ g ∈ m.minuses, ∀ f ∈ g.2, Spec.Safe db g.1 f)
    (hcommon : ∀ g ∈ m.minuses, ∃ x, In x m.nodes ∧ In x g.1)
    (hused : ∀ g ∈ m.minuses, ∀ x, In x g.1 → ∀ i n, m.nodes[i]? = some n → .var x ∈ [n.1, n.2.1, n.2.2] → Elsewhere m.main i x)
    (hinner : ∀ g ∈ m.minuses, ∀ x, Spec.Twice g x → Spec.Outside m x)
    (htwo : m.minuses.Pairwise fun g g' => ∀ x, In x g.1 → In x g'.1 → In x m.nodes) :
    ∃ p, translateMinus E s m = .plans p ∧ (∃ out, MAnswersOn S m p out) ∧
      ∀ out, MAnswersOn S m p out → (out.flatMap fun r => List.replicate r.1 r.2).Perm (Spec.minusAnswers db m) := by
  have hm : Fine m.main := ⟨hvars, fun f hf => hfilters f (.inl hf)⟩
  have hq : ∀ k, Fine (minusPart m k) := by
    intro k
    by_cases hk : k < m.minuses.length
    · exact ⟨hvars' _ (group_mem hk), fun f hf => hfilters f (.inr ⟨_, group_mem hk, hf⟩)⟩
    · have : m.group k = ([], []) := by simp [MQuery.group, List.getElem?_eq_none (by omega : m.minuses.length ≤ k)]
      exact ⟨by simp [minusPart, this], by simp [minusPart, this]⟩
  have hcom : ∀ k < m.minuses.length, ∃ x, In x m.nodes ∧ In x (m.group k).1 := fun k hk => hcommon _ (group_mem hk)
  have hv : ∀ k < m.minuses.length, Visible m k := by
    intro k hk i x hx h
    refine outside_spec (hinner _ (group_mem hk) x ?_)
    obtain ⟨n, h1, h2⟩ := node_in hx
    refine ⟨i, n, h1, h2, ?_⟩
    rcases h with h | ⟨j, _, hji, h⟩
    · exact .inl h
    · obtain ⟨n', h3, h4⟩ := node_in h
      exact .inr ⟨j, n', hji, h3, h4⟩
  have hsh : Shared m := by
    refine ⟨fun k hk x hx i hi => ?_, fun k hk j hj hkj x h1 h2 => ?_⟩
    · obtain ⟨n, h1, h2⟩ := node_in hi
      exact elsewhere_of (hused _ (group_mem hk) x hx i n h1 h2)
    · have hp := List.pairwise_iff_getElem.1 htwo
      simp only [MQuery.group, List.getElem?_eq_getElem hk, List.getElem?_eq_getElem hj, Option.getD_some] at h1 h2
      rcases Nat.lt_or_ge k j with h | h
      · exact hp k j hk hj h x h1 h2
      · exact hp j k hj hk (by omega) x h2 h1
  obtain ⟨p, l, hp, hl, hks⟩ := minus_plan hE s hs hne hwidth hne' hwidth' hv
  have hK : Kept m (setOf (m.projection ++ m.order)) := by
    intro x hx i _
    rw [mem_setOf, List.mem_append] at hx
    unfold used
    rcases hx with hx | hx
    · simp [MQuery.main, hx]
    · simp [MQuery.main, hx]
  refine ⟨_, hp, ?_, ?_⟩
  · obtain ⟨rows, h⟩ := mexec_exists hS hdb hsh hm hq hcom htied htied' hsafe (fun k hk => hsafe' _ (group_mem hk)) hl hK
    exact ⟨_, rows, h, rfl⟩
  · rintro out ⟨rows, h, rfl⟩
    obtain ⟨_, hn, hr⟩ := mrows hdb hsh hm hq hcom hl hK (mexec_mono hS hm hq hl h)
    generalize hnames : mcols m (setOf (m.projection ++ m.order)) (layers p l) = names at *
    rw [expand_out fun r => m.projection.map fun x => if names.contains x then some (look names r x) else none]
    refine (hr.map _).trans ?_
    rw [List.map_map]
    have e1 : ∀ c ∈ (sols db m.main p).filter fun c => l.all fun a => !removed db m c a.1,
        ((fun r => m.projection.map fun x => if names.contains x then some (look names r x) else none) ∘ fun c => names.map (val c)) c = m.projection.map (value c) := by
      intro c hc
      refine List.map_congr_left fun x hx => ?_
      have hc' := cvars_sols hl.base (List.mem_filter.1 hc).1 x
      by_cases hin : x ∈ names
      · rw [if_pos (by simpa using hin), look_map' hin, value_eq_val (hc'.2 (hn x hin))]
      · rw [if_neg (by simpa using hin)]
        refine (value_none fun h => hin ?_).symm
        rw [← hnames]
        exact (mem_mcols hsh hl hK (mem_setOf.2 (List.mem_append_left _ hx))).2 (hc'.1 h)
    rw [List.map_congr_left e1]
    have e2 : ∀ c : Choice, (l.all fun a => !removed db m c a.1) = (List.range m.minuses.length).all fun k => !removed db m c k := by
      intro c
      have : (l.all fun a => !removed db m c a.1) = (l.map (·.1)).all fun k => !removed db m c k := by rw [List.all_map]; rfl
      rw [this, hks, List.all_reverse]
    rw [List.filter_congr fun c _ => e2 c]
    have hV := sols_values (db := db) hm hl.base (m.projection ++ m.nodes.flatMap Node.vars)
    have hval : ∀ a b : Choice, (m.projection ++ m.nodes.flatMap Node.vars).map (value a) = (m.projection ++ m.nodes.flatMap Node.vars).map (value b) →
        ∀ x ∈ m.projection ++ m.nodes.flatMap Node.vars, value a x = value b x := fun a b h x hx => List.map_inj_left.1 h x hx
    unfold Spec.minusAnswers
    rw [minusSolutions_eq hcom]
    refine perm_factor hV ?_ ?_
    · intro a b hab
      have key : ∀ k, removed db m a k = removed db m b k := by
        intro k
        unfold removed
        have : ∀ d, agrees m k a d = agrees m k b d := by
          intro d
          rw [Bool.eq_iff_iff, agrees_iff, agrees_iff]
          have hx : ∀ x, In x m.nodes → value a x = value b x := fun x h1 => hval a b hab x (List.mem_append_right _ (mem_flat_vars.2 h1))
          exact ⟨fun h x h1 h2 => hx x h1 ▸ h x h1 h2, fun h x h1 h2 => (hx x h1).symm ▸ h x h1 h2⟩
        rw [funext this]
      simp only [key]
    · intro a b hab
      exact List.map_congr_left fun x hx => hval a b hab x (List.mem_append_left _ hx)

/-- **C105 (part).** For all estimates: a query with MINUS, whose groups are as in `C85_answers_partial`, gets a plan, which can be executed, and what is printed are the answers of the group without those that a solution of a group after MINUS
excludes, with multiplicities.
Missing: variables that are in one pattern of the group and otherwise only after MINUS (see `C105_unused_violated`), variables that are in several patterns or filters of a group after MINUS and nowhere else (see `C105_inner_violated`), variables
that are only in two groups after MINUS (see `C105_two_violated`), groups without patterns (see `C105_empty_violated`) and without common variables (see `C105_disjoint_violated`), entries of the pool of plans that were used before, and the other
parts of groups. -/
theorem C105_minus_partial (E : Est) (hE : E.Fair) (s : Stale E) (hs : s.next = []) (db : List Triple) (hdb : ∀ t ∈ db, t.1 < 2 ^ 64 ∧ t.2.1 < 2 ^ 64 ∧ t.2.2 < 2 ^ 64)
    (m : MQuery) (hne : m.nodes ≠ []) (hwidth : m.nodes.length ≤ 64) (hne' : ∀ g ∈ m.minuses, g.1 ≠ []) (hwidth' : ∀ g ∈ m.minuses, g.1.length ≤ 64)
    (hvars : ∀ n ∈ m.nodes, n.vars.Nodup) (hvars' : ∀ g ∈ m.minuses, ∀ n ∈ g.1, n.vars.Nodup) (htied : Spec.Tied m.main) (htied' : ∀ k < m.minuses.length, Spec.Tied (minusPart m k))
    (hfilters : ∀ f, f ∈ m.filters ∨ (∃ g ∈ m.minuses, f ∈ g.2) → ∀ g g' : Nat → Option Nat, (∀ x ∈ f.vars, g x = g' x) → f.holds g = f.holds g')
    (hsafe : ∀ f ∈ m.filters, Spec.Safe db m.nodes f) (hsafe' : ∀ g ∈ m.minuses, ∀ f ∈ g.2, Spec.Safe db g.1 f)
    (hcommon : ∀ g ∈ m.minuses, ∃ x, In x m.nodes ∧ In x g.1)
    (hused : ∀ g ∈ m.minuses, ∀ x, In x g.1 → ∀ i n, m.nodes[i]? = some n → .var x ∈ [n.1, n.2.1, n.2.2] → Elsewhere m.main i x)
    (hinner : ∀ g ∈ m.minuses, ∀ x, Spec.Twice g x → Spec.Outside m x)
    (htwo : m.minuses.Pairwise fun g g' => ∀ x, In x g.1 → In x g'.1 → In x m.nodes) :
    ∃ p, translateMinus E s m = .plans p ∧ (∃ out, MAnswers db m p out) ∧
      ∀ out, MAnswers db m p out → (out.flatMap fun r => List.replicate r.1 r.2).Perm (Spec.minusAnswers db m) :=
  minus_on E hE s hs db hdb (fun _ _ => scansOf_rows) m hne hwidth hne' hwidth' hvars hvars' htied htied' hfilters hsafe hsafe' hcommon hused hinner htwo

/-- `SELECT ?0 ?1 { ?0 10 ?1 . ?1 11 ?2 FILTER(?0 != ?1) MINUS { ?0 12 ?3 } MINUS { ?1 13 ?0 FILTER(?0 = 5) } }` -/
def exampleMinus : MQuery where
  nodes := [(.var 0, .const 10, .var 1), (.var 1, .const 11, .var 2)]
  filters := [⟨[0, 1], fun g => g 0 != g 1, fun _ => true⟩]
  minuses := [([(.var 0, .const 12, .var 3)], []), ([(.var 1, .const 13, .var 0)], [⟨[0], fun g => g 0 == some 5, fun _ => true⟩])]
  projection := [0, 1]
  order := []

def exampleMinusDb : List Triple := [(1, 10, 2), (3, 10, 2), (5, 10, 2), (6, 10, 2), (2, 10, 2), (2, 11, 7), (2, 11, 8), (1, 12, 9), (2, 13, 3), (2, 13, 5)]

example : Spec.minusAnswers exampleMinusDb exampleMinus = [[some 3, some 2], [some 3, some 2], [some 6, some 2], [some 6, some 2]] := by decide +kernel

theorem exampleMinus_ok : exampleEst.Fair ∧ (∀ t ∈ exampleMinusDb, t.1 < 2 ^ 64 ∧ t.2.1 < 2 ^ 64 ∧ t.2.2 < 2 ^ 64) ∧ exampleMinus.nodes ≠ [] ∧ exampleMinus.nodes.length ≤ 64 ∧
    (∀ g ∈ exampleMinus.minuses, g.1 ≠ []) ∧ (∀ g ∈ exampleMinus.minuses, g.1.length ≤ 64) ∧ (∀ n ∈ exampleMinus.nodes, n.vars.Nodup) ∧ (∀ g ∈ exampleMinus.minuses, ∀ n ∈ g.1, n.vars.Nodup) ∧
    Spec.Tied exampleMinus.main ∧ (∀ k < exampleMinus.minuses.length, Spec.Tied (minusPart exampleMinus k)) ∧
    (∀ f, f ∈ exampleMinus.filters ∨ (∃ g ∈ exampleMinus.minuses, f ∈ g.2) → ∀ g g' : Nat → Option Nat, (∀ x ∈ f.vars, g x = g' x) → f.holds g = f.holds g') ∧
    (∀ f ∈ exampleMinus.filters, Spec.Safe exampleMinusDb exampleMinus.nodes f) ∧ (∀ g ∈ exampleMinus.minuses, ∀ f ∈ g.2, Spec.Safe exampleMinusDb g.1 f) ∧
    (∀ g ∈ exampleMinus.minuses, ∃ x, In x exampleMinus.nodes ∧ In x g.1) ∧
    (∀ g ∈ exampleMinus.minuses, ∀ x, In x g.1 → ∀ i n, exampleMinus.nodes[i]? = some n → .var x ∈ [n.1, n.2.1, n.2.2] → Elsewhere exampleMinus.main i x) ∧
    (∀ g ∈ exampleMinus.minuses, ∀ x, Spec.Twice g x → Spec.Outside exampleMinus x) ∧
    (exampleMinus.minuses.Pairwise fun g g' => ∀ x, In x g.1 → In x g'.1 → In x exampleMinus.nodes) := by
  have h01 : ∀ q : Query, q.projection = [0, 1] → (∀ n ∈ q.nodes, ∀ x y, x ≠ y → .var x ∈ [n.1, n.2.1, n.2.2] → .var y ∈ [n.1, n.2.1, n.2.2] → (x = 0 ∨ x = 1) ∨ y = 0 ∨ y = 1) → Spec.Tied q := by
    intro q hp h i n hn _ x y hxy hx hy
    rcases h n (List.mem_of_getElem? hn) x y hxy hx hy with h | h
    · exact .inl (.inl (by rw [hp]; simpa using h))
    · exact .inr (.inl (by rw [hp]; simpa using h))
  refine ⟨⟨(fun (c : Nat) => decide_eq_true (Nat.le_refl c)), fun _ _ _ => rfl⟩, by decide, by decide, by decide, by decide, by decide, by decide, by decide, ?_, ?_, ?_, ?_, ?_, ?_, ?_, ?_, ?_⟩
  · refine h01 _ rfl ?_
    intro n hn x y hxy hx hy
    simp only [MQuery.main, exampleMinus, List.mem_cons, List.not_mem_nil, or_false] at hn
    rcases hn with rfl | rfl <;> simp at hx hy <;> omega
  · intro k hk
    refine h01 _ rfl ?_
    intro n hn x y hxy hx hy
    match k, hk with
    | 0, _ =>
      simp only [minusPart, MQuery.group, exampleMinus, List.getElem?_cons_zero, Option.getD_some, List.mem_cons, List.not_mem_nil, or_false] at hn
      subst hn; simp at hx hy; omega
    | 1, _ =>
      simp only [minusPart, MQuery.group, exampleMinus, List.getElem?_cons_zero, List.getElem?_cons_succ, Option.getD_some, List.mem_cons, List.not_mem_nil, or_false] at hn
      subst hn; simp at hx hy; omega
    | k + 2, hk => simp only [exampleMinus, List.length_cons, List.length_nil] at hk; omega
  · intro f hf g g' h
    simp only [exampleMinus, List.mem_cons, List.not_mem_nil, or_false, exists_eq_or_imp, exists_eq_left, false_or] at hf
    rcases hf with rfl | rfl
    · simp only [h 0 (by simp), h 1 (by simp)]
    · simp only [h 0 (by simp)]
  · intro f hf g _
    simp only [exampleMinus, List.mem_cons, List.not_mem_nil, or_false] at hf
    subst hf
    rfl
  · intro g hg f hf _ _
    simp only [exampleMinus, List.mem_cons, List.not_mem_nil, or_false] at hg
    rcases hg with rfl | rfl <;> simp at hf
    subst hf
    rfl
  · intro g hg
    simp only [exampleMinus, List.mem_cons, List.not_mem_nil, or_false] at hg
    rcases hg with rfl | rfl <;> exact ⟨0, by decide, by decide⟩
  · intro g hg x hx i n hn hv
    have h2 : x = 0 ∨ x = 1 ∨ x = 3 := by
      simp only [exampleMinus, List.mem_cons, List.not_mem_nil, or_false] at hg
      obtain ⟨n, hn, hx⟩ := hx
      rcases hg with rfl | rfl <;> simp only [List.mem_singleton] at hn <;> subst hn <;> simp at hx <;> omega
    have h3 : x = 0 ∨ x = 1 ∨ x = 2 := by
      have := List.mem_of_getElem? hn
      simp only [exampleMinus, List.mem_cons, List.not_mem_nil, or_false] at this
      rcases this with rfl | rfl <;> simp at hv <;> omega
    have : x = 0 ∨ x = 1 := by omega
    exact .inl (by simpa [MQuery.main, exampleMinus] using this)
  · intro g hg x ⟨i, n, hn, hx, h⟩
    have : x = 0 ∨ x = 1 := by
      simp only [exampleMinus, List.mem_cons, List.not_mem_nil, or_false] at hg
      rcases hg with rfl | rfl
      · match i, hn with
        | 0, hn =>
          rcases h with h | ⟨j, n', hj, h, _⟩
          · simp at h
          · match j, h with
            | 0, _ => exact absurd rfl hj
      · match i, hn with
        | 0, hn => cases hn; simp at hx; omega
    exact .inl (by simpa [exampleMinus] using this)
  · simp only [exampleMinus, List.pairwise_cons, List.mem_cons, List.not_mem_nil, or_false, forall_eq, List.Pairwise.nil, and_true, false_imp_iff, implies_true]
    rintro x ⟨n, hn, hx⟩ ⟨n', hn', hx'⟩
    simp only [List.mem_singleton] at hn hn'
    subst hn hn'
    simp at hx hx'
    have : x = 0 := by omega
    subst this
    decide

/-- There is a plan for the example, and it prints the answers. -/
example : ∃ p, translateMinus exampleEst ⟨(0 : Nat), []⟩ exampleMinus = .plans p ∧ (∃ out, MAnswers exampleMinusDb exampleMinus p out) := by
  obtain ⟨h1, h2, h3, h4, h5, h6, h7, h8, h9, h10, h11, h12, h13, h14, h15, h16, h17⟩ := exampleMinus_ok
  obtain ⟨p, a, b, _⟩ := C105_minus_partial exampleEst h1 ⟨(0 : Nat), []⟩ rfl exampleMinusDb h2 exampleMinus h3 h4 h5 h6 h7 h8 h9 h10 h11 h12 h13 h14 h15 h16 h17
  exact ⟨p, a, b⟩

/-! ## Violations -/

/-- `SELECT ?0 { ?0 ?3 ?1 MINUS { ?1 11 ?2 } }` -/
def unusedMinus : MQuery where
  nodes := [(.var 0, .var 3, .var 1)]
  filters := []
  minuses := [([(.var 1, .const 11, .var 2)], [])]
  projection := [0]
  order := []

/-- **C105** is false if a variable is in one pattern and otherwise only in a group after MINUS: `isUnused` does not look there, so that the scan leaves the variable out, and `translateMinus` uses a register that does not exist. -/
theorem C105_unused_violated : ∃ p, translateMinus exampleEst ⟨(0 : Nat), []⟩ unusedMinus = .plans p ∧ (∀ db out, ¬ MAnswers db unusedMinus p out) ∧ Spec.minusAnswers [(5, 10, 6), (6, 11, 7)] unusedMinus = [[some 6]] := by
  refine ⟨.minus (.main (.scan .fully .spo false 0)) 0 (.scan .full .osp false 0), by decide +kernel, ?_, by decide +kernel⟩
  rintro db out ⟨rows, h, _⟩
  cases h with
  | minus _ _ hb _ => exact absurd (hb 1 (by decide)).1 (by decide)

/-- `SELECT ?0 { ?0 10 ?1 MINUS { ?0 11 ?2 . ?2 12 ?3 } }` -/
def innerMinus : MQuery where
  nodes := [(.var 0, .const 10, .var 1)]
  filters := []
  minuses := [([(.var 0, .const 11, .var 2), (.var 2, .const 12, .var 3)], [])]
  projection := [0]
  order := []

/-- **C105** is false if a variable joins two patterns after MINUS and is nowhere else: `isUnused` does not look at these patterns, so that a scan leaves the variable out, and the join uses a register that does not exist. -/
theorem C105_inner_violated : ∃ p, translateMinus exampleEst ⟨(0 : Nat), []⟩ innerMinus = .plans p ∧ (∀ db out, ¬ MAnswers db innerMinus p out) ∧
    Spec.minusAnswers [(5, 10, 6), (6, 10, 6), (5, 11, 7), (6, 11, 8), (7, 12, 9)] innerMinus = [[some 6]] := by
  refine ⟨.minus (.main (.scan .full .osp false 0)) 0 (.hash (.scan .full .osp false 0) (.scan .fully .pso false 1)), by decide +kernel, ?_, by decide +kernel⟩
  rintro db out ⟨rows, h, _⟩
  cases h with
  | minus _ hq _ _ =>
    cases hq with
    | hash _ _ _ _ _ _ hb => exact absurd (hb 2 (by decide)).2 (by decide)

/-- `SELECT ?0 { ?0 10 ?1 MINUS { ?0 11 ?2 } MINUS { ?0 12 ?2 } }` -/
def twoMinus : MQuery where
  nodes := [(.var 0, .const 10, .var 1)]
  filters := []
  minuses := [([(.var 0, .const 11, .var 2)], []), ([(.var 0, .const 12, .var 2)], [])]
  projection := [0]
  order := []

/-- **C105** is false if two groups after MINUS have a variable that the group does not have: the variables of the first are taken for variables of the left side of the second (`collectVariables`), which has no register for them. -/
theorem C105_two_violated : ∃ p, translateMinus exampleEst ⟨(0 : Nat), []⟩ twoMinus = .plans p ∧ (∀ db out, ¬ MAnswers db twoMinus p out) ∧
    Spec.minusAnswers [(5, 10, 6), (6, 10, 6), (7, 10, 6), (5, 11, 1), (6, 12, 2)] twoMinus = [[some 7]] := by
  refine ⟨.minus (.minus (.main (.scan .full .osp false 0)) 0 (.scan .full .osp false 0)) 1 (.scan .full .osp false 0), by decide +kernel, ?_, by decide +kernel⟩
  rintro db out ⟨rows, h, _⟩
  cases h with
  | minus _ _ hb _ => exact absurd (hb 2 (by decide)).1 (by decide)

/-- **C105** is false if a group after MINUS has no patterns, such as `MINUS { }`: there is no plan for it, and a null pointer is written to. -/
theorem C105_empty_violated (E : Est) (hE : E.Fair) (s : Stale E) (m : MQuery) (hne : m.nodes ≠ []) (hwidth : m.nodes.length ≤ 64) (h : ∃ g ∈ m.minuses, g.1 = []) : translateMinus E s m = .undefined := by
  obtain ⟨g, hg, he⟩ := h
  obtain ⟨k, hk, rfl⟩ := List.mem_iff_getElem.1 hg
  have hnone : translateGroup E m k = none := by
    have hn : (minusPart m k).nodes = [] := by simp only [minusPart, MQuery.group, List.getElem?_eq_getElem hk, Option.getD_some]; exact he
    unfold translateGroup translateIntOf
    rw [if_neg (by rw [hn]; simp), hn]
  have key : ∀ (ks : List Nat) (p : MPlan), k ∈ ks → addMinuses E m ks p = .undefined := by
    intro ks
    induction ks with
    | nil => intro p h; simp at h
    | cons j ks ih =>
      intro p h
      rw [addMinuses]
      rcases List.mem_cons.1 h with rfl | h
      · rw [hnone]
      · split
        · exact ih _ h
        · rfl
  unfold translateMinus
  obtain ⟨a, as, ha, _⟩ := translateInt_final hE (q := m.main) hne hwidth
  match hm : m.minuses with
  | [] => rw [hm] at hk; simp at hk
  | g :: gs =>
    simp only [ha]
    rw [← hm, key _ _ (List.mem_range.2 hk)]

/-- `SELECT ?0 { ?0 10 ?1 MINUS { ?2 ?3 ?4 } }` -/
def disjointMinus : MQuery where
  nodes := [(.var 0, .const 10, .var 1)]
  filters := []
  minuses := [([(.var 2, .var 3, .var 4)], [])]
  projection := [0]
  order := []

/-- **C105** is false if a group after MINUS has no variable of the group: both sides have rows, and the number of values is divided by the number of common variables, which is zero. -/
theorem C105_disjoint_violated : ∃ p q, translateMinus exampleEst ⟨(0 : Nat), []⟩ disjointMinus = .plans (.minus (.main p) 0 q) ∧
    (∀ rows sub, ExecOn (ScanRows [(5, 10, 6), (7, 11, 8)] disjointMinus.main) disjointMinus.main [0] p rows →
      ExecOn (ScanRows [(5, 10, 6), (7, 11, 8)] (minusPart disjointMinus 0)) (minusPart disjointMinus 0) [] q sub → Algebra.minus [] [] rows sub = none) ∧
    (∀ out, ¬ MAnswers [(5, 10, 6), (7, 11, 8)] disjointMinus (.minus (.main p) 0 q) out) ∧
    Spec.minusAnswers [(5, 10, 6), (7, 11, 8)] disjointMinus = [[some 5]] := by
  have key : ∀ rows sub, ExecOn (ScanRows [(5, 10, 6), (7, 11, 8)] disjointMinus.main) disjointMinus.main [0] (.scan .full .osp false 0) rows →
      ExecOn (ScanRows [(5, 10, 6), (7, 11, 8)] (minusPart disjointMinus 0)) (minusPart disjointMinus 0) [] (.scan .fully .pso false 0) sub → Algebra.minus [] [] rows sub = none := by
    intro rows sub h1 h2
    cases h1 with
    | scan _ r1 =>
      cases h2 with
      | scan _ r2 =>
        match rows, sub, r1, r2 with
        | [], _, r1, _ => exact absurd (r1.bag [5]) (by decide +kernel)
        | _ :: _, [], _, r2 => exact absurd (r2.bag []) (by decide +kernel)
        | _ :: _, _ :: _, _, _ => rfl
  refine ⟨.scan .full .osp false 0, .scan .fully .pso false 0, by decide +kernel, key, ?_, by decide +kernel⟩
  rintro out ⟨rows, h, _⟩
  cases h with
  | @minus _ _ _ _ rows sub _ h1 h2 _ h3 =>
    have hc : toCheck disjointMinus (.main (.scan .full .osp false 0)) 0 (.scan .fully .pso false 0) = [] := by decide
    rw [hc] at h3 h2 h1
    cases h1 with
    | main h1 =>
      have := key rows sub h1 h2
      rw [List.map_nil, List.map_nil, this] at h3
      cases h3

/-- Both sides of the plan can be executed. -/
example : (∃ rows, ExecOn (ScanRows [(5, 10, 6), (7, 11, 8)] disjointMinus.main) disjointMinus.main [0] (.scan .full .osp false 0) rows) ∧
    ∃ sub, ExecOn (ScanRows [(5, 10, 6), (7, 11, 8)] (minusPart disjointMinus 0)) (minusPart disjointMinus 0) [] (.scan .fully .pso false 0) sub := by
  obtain ⟨rows, h1⟩ := exists_scan [(5, 10, 6), (7, 11, 8)] disjointMinus.main .full .osp false 0 (cols disjointMinus.main [0] (.scan .full .osp false 0))
  obtain ⟨sub, h2⟩ := exists_scan [(5, 10, 6), (7, 11, 8)] (minusPart disjointMinus 0) .fully .pso false 0 (cols (minusPart disjointMinus 0) [] (.scan .fully .pso false 0))
  exact ⟨⟨rows, .scan (by unfold Starts; decide) h1⟩, sub, .scan (by unfold Starts; decide) h2⟩

end Trident.Sparql.PlanGen
