import Verif.Itr
/-!
# Grouping a list of pairs by its first value
(helper vocabulary for the cluster and column layouts)
-/
namespace Trident

/-- Consecutive pairs with the same first value, grouped. -/
def groups : List (Nat × Nat) → List (Nat × List Nat)
  | [] => []
  | p :: l => match groups l with
    | (k, vs) :: g => if k = p.1 then (k, p.2 :: vs) :: g else (p.1, [p.2]) :: (k, vs) :: g
    | [] => [(p.1, [p.2])]

/-- A group of column values. -/
abbrev Grp := Int × List Int

/-- Group of ids as group of column values. -/
def grpI (g : Nat × List Nat) : Grp := ((g.1 : Int), g.2.map fun (v : Nat) => (v : Int))

/-- The pairs of a list of groups. -/
def ungroup : List Grp → List Pair
  | [] => []
  | g :: gs => g.2.map (fun v => (g.1, v)) ++ ungroup gs

theorem groups_head (p : Nat × Nat) (l : List (Nat × Nat)) :
    ∃ vs g, groups (p :: l) = (p.1, p.2 :: vs) :: g := by
  simp only [groups]; split
  · split
    · rename_i h; exact ⟨_, _, by rw [h]⟩
    · exact ⟨_, _, rfl⟩
  · exact ⟨_, _, rfl⟩

theorem groups_block_append (k : Nat) (vs : List Nat) (hvs : vs ≠ []) (l : List (Nat × Nat))
    (hl : ∀ p r, l = p :: r → p.1 ≠ k) :
    groups (vs.map (fun v => (k, v)) ++ l) = (k, vs) :: groups l := by
  induction vs with
  | nil => simp at hvs
  | cons v vs ih =>
    cases vs with
    | nil =>
      simp only [List.map_cons, List.map_nil, List.singleton_append, groups]
      cases l with
      | nil => simp [groups]
      | cons q r =>
        obtain ⟨ws, g, e⟩ := groups_head q r
        rw [e]; simp [hl q r rfl]
    | cons w vs =>
      rw [List.map_cons, List.cons_append, groups, ih (by simp)]
      simp

theorem groups_block (k : Nat) (vs : List Nat) (hvs : vs ≠ []) :
    groups (vs.map (fun v => (k, v))) = [(k, vs)] := by
  have := groups_block_append k vs hvs [] (by simp)
  simpa [groups] using this

/-- Grouping loses nothing. -/
theorem ungroup_groups (l : List (Nat × Nat)) : ungroup ((groups l).map grpI) = toI l := by
  induction l with
  | nil => rfl
  | cons p l ih =>
    simp only [groups]
    have e : toI (p :: l) = ((p.1 : Int), (p.2 : Int)) :: toI l := rfl
    split
    · rename_i k vs g hg
      rw [hg] at ih
      split
      · rename_i hk; subst hk
        rw [e, ← ih]; simp [ungroup, grpI]
      · rw [e, ← ih]; simp [ungroup, grpI]
    · rename_i hg
      rw [hg] at ih
      rw [e, ← ih]; simp [ungroup, grpI]

theorem groups_ne {l : List (Nat × Nat)} {g} (h : g ∈ groups l) : g.2 ≠ [] := by
  induction l generalizing g with
  | nil => simp [groups] at h
  | cons p l ih =>
    simp only [groups] at h
    split at h
    · rename_i k vs gs hg
      split at h
      · rcases List.mem_cons.1 h with rfl | h
        · simp
        · exact ih (by rw [hg]; simp [h])
      · rcases List.mem_cons.1 h with rfl | h
        · simp
        · exact ih (by rw [hg]; simpa using h)
    · simp only [List.mem_singleton] at h; subst h; simp

theorem groups_mem {l : List (Nat × Nat)} {g v} (h : g ∈ groups l) (hv : v ∈ g.2) : (g.1, v) ∈ l := by
  induction l generalizing g v with
  | nil => simp [groups] at h
  | cons p l ih =>
    simp only [groups] at h
    split at h
    · rename_i k vs gs hg
      split at h
      · rename_i hk; subst hk
        rcases List.mem_cons.1 h with rfl | h
        · simp only [List.mem_cons] at hv
          rcases hv with rfl | hv
          · simp
          · have := ih (g := (p.1, vs)) (v := v) (by rw [hg]; simp) hv
            simp [this]
        · have := ih (g := g) (v := v) (by rw [hg]; simp [h]) hv
          simp [this]
      · rcases List.mem_cons.1 h with rfl | h
        · simp only [List.mem_singleton] at hv; subst hv; simp
        · have := ih (g := g) (v := v) (by rw [hg]; simpa using h) hv
          simp [this]
    · simp only [List.mem_singleton] at h; subst h
      simp only [List.mem_singleton] at hv; subst hv; simp

theorem groups_len_le {l : List (Nat × Nat)} {g} (h : g ∈ groups l) :
    g.2.length ≤ (l.filter fun q => q.1 = g.1).length := by
  induction l generalizing g with
  | nil => simp [groups] at h
  | cons p l ih =>
    have hfilt : ∀ k, (l.filter fun q => q.1 = k).length ≤
        ((p :: l).filter fun q => q.1 = k).length := by
      intro k; rw [List.filter_cons]; split <;> simp
    simp only [groups] at h
    split at h
    · rename_i k vs gs hg
      split at h
      · rename_i hk; subst hk
        rcases List.mem_cons.1 h with rfl | h
        · have := ih (g := (p.1, vs)) (by rw [hg]; simp)
          rw [List.filter_cons]; simp at this ⊢; omega
        · exact Nat.le_trans (ih (by rw [hg]; simp [h])) (hfilt _)
      · rcases List.mem_cons.1 h with rfl | h
        · rw [List.filter_cons]; simp
        · exact Nat.le_trans (ih (by rw [hg]; simpa using h)) (hfilt _)
    · simp only [List.mem_singleton] at h; subst h
      rw [List.filter_cons]; simp

/-- Groups of a sorted list: keys strictly increase, values increase within a group. -/
structure GSorted (gs : List Grp) : Prop where
  keys : gs.Pairwise (fun g h => g.1 < h.1)
  vals : ∀ g ∈ gs, g.2.Pairwise (· < ·)
  nonneg : ∀ g ∈ gs, ∀ v ∈ g.2, 0 ≤ v

theorem GSorted.tail {g gs} (h : GSorted (g :: gs)) : GSorted gs :=
  ⟨(List.pairwise_cons.1 h.keys).2, fun x hx => h.vals x (by simp [hx]),
   fun x hx => h.nonneg x (by simp [hx])⟩

theorem GSorted.head_lt {g gs} (h : GSorted (g :: gs)) : ∀ x ∈ gs, g.1 < x.1 :=
  (List.pairwise_cons.1 h.keys).1

theorem GSorted.append_right {xs gs} (h : GSorted (xs ++ gs)) : GSorted gs :=
  ⟨(List.pairwise_append.1 h.keys).2.1, fun x hx => h.vals x (by simp [hx]),
   fun x hx => h.nonneg x (by simp [hx])⟩

theorem mem_ungroup {gs : List Grp} {p : Pair} : p ∈ ungroup gs ↔ ∃ g ∈ gs, p.1 = g.1 ∧ p.2 ∈ g.2 := by
  induction gs with
  | nil => simp [ungroup]
  | cons g gs ih =>
    simp only [ungroup, List.mem_append, List.mem_map, ih, List.mem_cons, exists_eq_or_imp]
    constructor
    · rintro (⟨v, hv, rfl⟩ | h)
      · exact .inl ⟨rfl, hv⟩
      · exact .inr h
    · rintro (⟨h1, h2⟩ | h)
      · exact .inl ⟨p.2, h2, by rw [← h1]⟩
      · exact .inr h

theorem ungroup_append (xs ys : List Grp) : ungroup (xs ++ ys) = ungroup xs ++ ungroup ys := by
  induction xs with
  | nil => rfl
  | cons x xs ih => simp [ungroup, ih]

/-- Keys of a sorted list of pairs are strictly increasing after grouping. -/
theorem groups_keys {l : List (Nat × Nat)} (h : Sorted (toI l)) :
    ((groups l).map grpI).Pairwise (fun g h => g.1 < h.1) := by
  induction l with
  | nil => simp [groups]
  | cons p l ih =>
    have hl : Sorted (toI l) := (List.pairwise_cons.1 h).2
    have hp : ∀ q ∈ l, p.1 ≤ q.1 := by
      intro q hq
      have := (List.pairwise_cons.1 h).1 ((q.1 : Int), (q.2 : Int)) (List.mem_map.2 ⟨q, hq, rfl⟩)
      unfold Pair.le at this; simp only at this; omega
    have ih := ih hl
    simp only [groups]
    split
    · rename_i k vs g hg
      rw [hg] at ih
      rw [List.map_cons, List.pairwise_cons] at ih
      split
      · rename_i hk
        rw [List.map_cons, List.pairwise_cons]; exact ih
      · rename_i hk
        rw [List.map_cons, List.pairwise_cons]
        refine ⟨?_, by rw [List.map_cons, List.pairwise_cons]; exact ih⟩
        have hkp : p.1 < k := by
          obtain ⟨v, hv⟩ := List.exists_mem_of_ne_nil _ (groups_ne (l := l) (g := (k, vs)) (by rw [hg]; simp))
          have := hp _ (groups_mem (l := l) (g := (k, vs)) (by rw [hg]; simp) hv)
          simp only at this; omega
        intro x hx
        rcases List.mem_cons.1 hx with rfl | hx
        · simp only [grpI]; omega
        · have := ih.1 x hx
          simp only [grpI] at this ⊢; omega
    · simp

theorem groups_gsorted {l : List (Nat × Nat)} (h : SortedS (toI l)) :
    GSorted ((groups l).map grpI) := by
  refine ⟨groups_keys h.sorted, ?_, ?_⟩
  · intro g hg
    rw [← ungroup_groups] at h
    generalize (groups l).map grpI = gs at *
    induction gs with
    | nil => simp at hg
    | cons x gs ih =>
      rw [ungroup, SortedS, List.pairwise_append] at h
      rcases List.mem_cons.1 hg with rfl | hg
      · have := h.1
        rw [List.pairwise_map] at this
        exact this.imp fun h => by unfold Pair.lt at h; simp only at h; omega
      · exact ih h.2.1 hg
  · intro g hg v hv
    obtain ⟨x, _, rfl⟩ := List.mem_map.1 hg
    simp only [grpI, List.mem_map] at hv
    obtain ⟨n, _, rfl⟩ := hv; omega

/-- Pairs with a given first value, when the groups are sorted. -/
theorem filter_ungroup_fst {gs : List Grp} (h : gs.Pairwise (fun g h => g.1 < h.1)) (c : Int) :
    (ungroup gs).filter (fun p => p.1 = c) =
      ((gs.find? fun g => g.1 = c).map fun g => g.2.map fun v => (c, v)).getD [] := by
  induction gs with
  | nil => simp [ungroup]
  | cons g gs ih =>
    rw [List.pairwise_cons] at h
    rw [ungroup, List.filter_append, ih h.2, List.find?_cons]
    by_cases hg : g.1 = c
    · have h1 : (g.2.map fun v => (g.1, v)).filter (fun p => decide (p.1 = c)) = g.2.map fun v => (c, v) := by
        rw [List.filter_eq_self.2]
        · rw [hg]
        · intro p hp; obtain ⟨v, _, rfl⟩ := List.mem_map.1 hp; simpa using hg
      have h2 : gs.find? (fun g => g.1 = c) = none := by
        rw [List.find?_eq_none]; intro x hx; have := h.1 x hx; simp; omega
      rw [h1, h2]; simp [hg]
    · have h1 : (g.2.map fun v => (g.1, v)).filter (fun p => decide (p.1 = c)) = [] := by
        rw [List.filter_eq_nil_iff]
        intro p hp; obtain ⟨v, _, rfl⟩ := List.mem_map.1 hp; simpa using hg
      rw [h1]; simp [hg]

theorem filter_ge_ungroup_all {gs : List Grp} {c1 c2 : Int} (h : ∀ g ∈ gs, c1 < g.1) :
    (ungroup gs).filter (fun p => decide (Pair.le (c1, c2) p)) = ungroup gs := by
  rw [List.filter_eq_self]
  intro p hp
  obtain ⟨g, hg, h1, h2⟩ := mem_ungroup.1 hp
  have := h g hg
  rw [decide_eq_true_eq]; unfold Pair.le; left; omega

theorem filter_ge_ungroup_none {gs : List Grp} {c1 c2 : Int} (h : ∀ g ∈ gs, g.1 < c1) :
    (ungroup gs).filter (fun p => decide (Pair.le (c1, c2) p)) = [] := by
  rw [List.filter_eq_nil_iff]
  intro p hp
  obtain ⟨g, hg, h1, h2⟩ := mem_ungroup.1 hp
  have := h g hg
  rw [decide_eq_true_eq]; unfold Pair.le; omega

theorem GSorted.sortedS {gs : List Grp} (h : GSorted gs) : SortedS (ungroup gs) := by
  induction gs with
  | nil => simp [ungroup, SortedS]
  | cons g gs ih =>
    rw [ungroup, SortedS, List.pairwise_append]
    refine ⟨?_, ih h.tail, ?_⟩
    · rw [List.pairwise_map]
      exact (h.vals g (by simp)).imp fun h => .inr ⟨rfl, h⟩
    · intro p hp q hq
      obtain ⟨v, _, rfl⟩ := List.mem_map.1 hp
      obtain ⟨g', hg', h1, _⟩ := mem_ungroup.1 hq
      have := h.head_lt g' hg'
      left; simp only; omega

/-- Distinct first values with their counts. -/
def heads (gs : List Grp) : List Pair := gs.map fun g => (g.1, (g.2.length : Int))

theorem runs_ungroup {gs : List Grp} (hk : gs.Pairwise (fun g h => g.1 < h.1))
    (hne : ∀ g ∈ gs, g.2 ≠ []) : runs (ungroup gs) = heads gs := by
  induction gs with
  | nil => rfl
  | cons g gs ih =>
    rw [List.pairwise_cons] at hk
    rw [ungroup, runs_block g.1 (g.2.map fun v => (g.1, v)) (ungroup gs)
      (by simpa using hne g (by simp)) (by intro p hp; obtain ⟨v, _, rfl⟩ := List.mem_map.1 hp; rfl),
      ih hk.2 (fun x hx => hne x (by simp [hx]))]
    · simp [heads]
    · intro p r hpr
      obtain ⟨g', hg', h1, _⟩ := mem_ungroup.1 (show p ∈ ungroup gs by rw [hpr]; simp)
      have := hk.1 g' hg'; omega

theorem isDistinct_heads {gs : List Grp} (hk : gs.Pairwise (fun g h => g.1 < h.1))
    (hne : ∀ g ∈ gs, g.2 ≠ []) : IsDistinct (ungroup gs) (heads gs) := by
  rw [← runs_ungroup hk hne]
  refine isDistinct_runs ?_
  clear hne
  induction gs with
  | nil => simp [ungroup]
  | cons g gs ih =>
    rw [List.pairwise_cons] at hk
    rw [ungroup, List.pairwise_append]
    refine ⟨?_, ih hk.2, ?_⟩
    · rw [List.pairwise_map]; exact List.pairwise_of_forall (fun _ _ => Int.le_refl _)
    · intro p hp q hq
      obtain ⟨v, _, rfl⟩ := List.mem_map.1 hp
      obtain ⟨g', hg', h1, _⟩ := mem_ungroup.1 hq
      have := hk.1 g' hg'
      simp only; omega

theorem filter_ge_map {k c1 c2 : Int} (vs : List Int) :
    (vs.map fun v => (k, v)).filter (fun p => decide (Pair.le (c1, c2) p)) =
      if c1 < k then vs.map (fun v => (k, v)) else
      if c1 = k then (vs.filter fun v => c2 ≤ v).map (fun v => (k, v)) else [] := by
  by_cases h1 : c1 < k
  · rw [if_pos h1, List.filter_eq_self]
    intro p hp; obtain ⟨v, _, rfl⟩ := List.mem_map.1 hp
    rw [decide_eq_true_eq]; unfold Pair.le; left; exact h1
  · rw [if_neg h1]
    by_cases h2 : c1 = k
    · rw [if_pos h2, List.filter_map]
      congr 1
      apply List.filter_congr
      intro v _
      simp [Pair.le, h2]
    · rw [if_neg h2, List.filter_eq_nil_iff]
      intro p hp; obtain ⟨v, _, rfl⟩ := List.mem_map.1 hp
      rw [decide_eq_true_eq]; unfold Pair.le; omega

/-- Filtering an increasing list by a lower bound is dropping a prefix. -/
theorem filter_ge_drop {vs : List Int} (c : Int) (i : Nat) (hi : i ≤ vs.length)
    (h1 : ∀ k (hk : k < vs.length), k < i → vs[k] < c)
    (h2 : ∀ k (hk : k < vs.length), i ≤ k → c ≤ vs[k]) :
    vs.filter (fun v => c ≤ v) = vs.drop i := by
  have := filter_eq_slice (fun v => decide (c ≤ v)) vs i vs.length hi (Nat.le_refl _)
    (fun k hk hki => by have := h1 k hk hki; simp; omega)
    (fun k hk hki _ => by have := h2 k hk hki; simpa using this)
    (fun k hk hki => by omega)
  simpa using this

end Trident
