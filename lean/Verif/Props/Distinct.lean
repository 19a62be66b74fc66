import Verif.Sparql.Distinct
/-!
# C72: DISTINCT

The operator for DISTINCT returns every row of its input once, with the number of all its occurrences.
-/
namespace Trident.Sparql.Distinct

/-- The order of the pool: every group once. -/
def Enum (enum : Nat → List Nat) : Prop := ∀ n, (enum n).Perm (List.range n)

theorem mem_rehash (groups : List Group) (size : Nat) (order : List Nat) (x i : Nat) :
    i ∈ rehash groups size order x ↔ i ∈ order ∧ ∃ g, groups[i]? = some g ∧ g.hash &&& (size - 1) = x := by
  have key : ∀ (t : Nat → List Nat), i ∈ (order.foldl (fun t i => match groups[i]? with
      | some g => push t (g.hash &&& (size - 1)) i
      | none => t) t) x ↔ i ∈ t x ∨ (i ∈ order ∧ ∃ g, groups[i]? = some g ∧ g.hash &&& (size - 1) = x) := by
    induction order with
    | nil => intro t; simp
    | cons a order ih =>
      intro t
      rw [List.foldl_cons, ih]
      match ha : groups[a]? with
      | none =>
        simp only [List.mem_cons]
        constructor
        · rintro (h | h)
          · exact .inl h
          · exact .inr ⟨.inr h.1, h.2⟩
        · rintro (h | ⟨rfl | h1, h2⟩)
          · exact .inl h
          · rw [ha] at h2; obtain ⟨g, h, _⟩ := h2; cases h
          · exact .inr ⟨h1, h2⟩
      | some g =>
        simp only [List.mem_cons, push]
        constructor
        · rintro (h | h)
          · split at h
            · rename_i hx
              rcases List.mem_cons.1 h with rfl | h
              · exact .inr ⟨.inl rfl, g, ha, hx.symm⟩
              · exact .inl h
            · exact .inl h
          · exact .inr ⟨.inr h.1, h.2⟩
        · rintro (h | ⟨rfl | h1, h2⟩)
          · left; split
            · exact List.mem_cons_of_mem _ h
            · exact h
          · left
            obtain ⟨g', e, hx⟩ := h2
            rw [ha] at e; cases e
            rw [if_pos hx.symm]; exact List.mem_cons_self
          · exact .inr ⟨h1, h2⟩
  have := key fun _ => []
  simp only [List.not_mem_nil, false_or] at this
  exact this

/-- The groups as rows. -/
def out (l : List Group) : List Row := l.map fun g => (g.count, g.values)

/-- What holds after the rows `input`. -/
structure Inv (s : HT) (input : List Row) : Prop where
  chain : ∀ x i, i ∈ s.slot x ↔ ∃ g, s.groups[i]? = some g ∧ g.hash &&& (s.size - 1) = x
  hash : ∀ g ∈ s.groups, g.hash = hash g.values
  nodup : (s.groups.map (·.values)).Nodup
  values : ∀ t, t ∈ s.groups.map (·.values) ↔ t ∈ input.map (·.2)
  bag : ∀ t, bag (out s.groups) t = bag input t

theorem Inv.empty : Inv HT.empty [] where
  chain := by intro x i; simp [HT.empty]
  hash := by intro g h; cases h
  nodup := List.nodup_nil
  values := by intro t; simp [HT.empty]
  bag := by intro t; rfl

theorem Inv.grow {enum : Nat → List Nat} (he : Enum enum) {s : HT} {input : List Row} (h : Inv s input) : Inv (grow enum s) input := by
  unfold Distinct.grow
  split
  · refine ⟨?_, h.hash, h.nodup, h.values, h.bag⟩
    intro x i
    rw [mem_rehash, (he _).mem_iff]
    constructor
    · exact fun h => h.2
    · rintro ⟨g, e, hx⟩
      exact ⟨List.mem_range.2 (List.getElem?_eq_some_iff.1 e).1, g, e, hx⟩
  · exact h

/-- `search` finds the group of a row, if there is one. -/
theorem search_some {s : HT} {t : Tup} {ch : List Nat} {i : Nat} (hs : search s.groups t ch = some i) :
    ∃ g, s.groups[i]? = some g ∧ g.values = t := by
  have := List.find?_some hs
  split at this
  · rename_i g hg
    exact ⟨g, hg, by simpa using this⟩
  · cases this

theorem Inv.search_none {s : HT} {input : List Row} (h : Inv s input) {t : Tup} (hs : search s.groups t (s.slot (Distinct.hash t &&& (s.size - 1))) = none) :
    t ∉ s.groups.map (·.values) := by
  intro hm
  obtain ⟨g, hg, hv⟩ := List.mem_map.1 hm
  obtain ⟨i, hi⟩ := List.mem_iff_getElem?.1 hg
  have := List.find?_eq_none.1 hs i ((h.chain _ i).2 ⟨g, hi, by rw [h.hash g hg, hv]⟩)
  rw [hi] at this
  simp [hv] at this

theorem out_modify (l : List Group) (i c : Nat) (g : Group) (hg : l[i]? = some g) (t : Tup) :
    bag (out (l.modify i fun g => { g with count := g.count + c })) t = bag (out l) t + if g.values = t then c else 0 := by
  induction l generalizing i with
  | nil => cases hg
  | cons a l ih =>
    match i with
    | 0 =>
      simp only [List.getElem?_cons_zero, Option.some.injEq] at hg
      subst hg
      simp only [out, List.modify_zero_cons, List.map_cons, bag_cons]
      split <;> omega
    | i + 1 =>
      simp only [List.getElem?_cons_succ] at hg
      have := ih i hg
      simp only [out, List.modify_succ_cons, List.map_cons, bag_cons] at this ⊢
      omega

theorem values_modify (l : List Group) (i c : Nat) : (l.modify i fun g => { g with count := g.count + c }).map (·.values) = l.map (·.values) := by
  induction l generalizing i with
  | nil => simp
  | cons a l ih =>
    match i with
    | 0 => simp
    | i + 1 => simp [ih]

theorem Inv.addRow {enum : Nat → List Nat} (he : Enum enum) {s : HT} {input : List Row} (h : Inv s input) (r : Row) : Inv (addRow enum s r) (input ++ [r]) := by
  unfold Distinct.addRow
  match hs : search s.groups r.2 (s.slot (Distinct.hash r.2 &&& (s.size - 1))) with
  | some i =>
    obtain ⟨g, hg, hv⟩ := search_some hs
    have hmem : r.2 ∈ s.groups.map (·.values) := List.mem_map.2 ⟨g, List.mem_of_getElem? hg, hv⟩
    refine ⟨?_, ?_, ?_, ?_, ?_⟩
    · intro x j
      rw [h.chain]
      simp only [List.getElem?_modify]
      constructor
      · rintro ⟨g', a, b⟩
        rw [a]
        by_cases hij : i = j
        · simp [hij, b]
        · simp [hij, b]
      · rintro ⟨g', a, b⟩
        match hj : s.groups[j]? with
        | none => rw [hj] at a; simp at a
        | some q =>
          rw [hj] at a
          refine ⟨q, rfl, ?_⟩
          by_cases hij : i = j
          · simp only [hij, if_true, Option.map_eq_map, Option.map_some, Option.some.injEq] at a
            rw [← a] at b; exact b
          · simp only [hij, if_false, Option.map_eq_map, Option.map_some, Option.some.injEq] at a
            rw [← a] at b; exact b
    · intro q hq
      obtain ⟨j, hj⟩ := List.mem_iff_getElem?.1 hq
      rw [List.getElem?_modify] at hj
      obtain ⟨q', hq', e⟩ := Option.map_eq_some_iff.1 hj
      have := h.hash q' (List.mem_of_getElem? hq')
      rw [← e]
      split <;> exact this
    · show (List.map _ (s.groups.modify i _)).Nodup
      rw [values_modify]; exact h.nodup
    · intro t
      rw [show (List.map (·.values) (s.groups.modify i _)) = _ from values_modify _ _ _, h.values, List.map_append, List.mem_append]
      constructor
      · exact .inl
      · rintro (a | a)
        · exact a
        · simp only [List.map_cons, List.map_nil, List.mem_singleton] at a
          rw [a]; exact (h.values _).1 hmem
    · intro t
      rw [out_modify _ _ _ _ hg, h.bag, bag_append, bag_cons, bag_nil, hv, Nat.add_zero]
  | none =>
    have hnew := h.search_none hs
    apply Inv.grow he
    refine ⟨?_, ?_, ?_, ?_, ?_⟩
    · intro x i
      simp only [push]
      by_cases hi : i < s.groups.length
      · rw [List.getElem?_append_left hi]
        rw [← h.chain]
        split
        · rw [List.mem_cons]
          constructor
          · rintro (a | a)
            · omega
            · exact a
          · exact .inr
        · exact Iff.rfl
      · have hno : i ∉ s.slot x := fun hm => by
          obtain ⟨g, a, _⟩ := (h.chain x i).1 hm
          exact hi (List.getElem?_eq_some_iff.1 a).1
        rw [List.getElem?_append_right (by omega)]
        constructor
        · intro hm
          split at hm
          · rename_i hx
            rcases List.mem_cons.1 hm with a | a
            · subst a
              exact ⟨⟨Distinct.hash r.2, r.1, r.2⟩, by simp, hx.symm⟩
            · exact absurd a hno
          · exact absurd hm hno
        · rintro ⟨g, a, b⟩
          have hi0 : i = s.groups.length := by
            have := (List.getElem?_eq_some_iff.1 a).1
            simp only [List.length_singleton] at this
            omega
          subst hi0
          simp only [Nat.sub_self, List.getElem?_cons_zero, Option.some.injEq] at a
          subst a
          rw [if_pos b.symm]; exact List.mem_cons_self
    · intro g hg
      rcases List.mem_append.1 hg with a | a
      · exact h.hash g a
      · rw [List.mem_singleton] at a; subst a; rfl
    · rw [List.map_append, List.nodup_append]
      refine ⟨h.nodup, by simp, ?_⟩
      intro a ha b hb e
      simp only [List.map_cons, List.map_nil, List.mem_singleton] at hb
      rw [e, hb] at ha
      exact hnew ha
    · intro t
      rw [List.map_append, List.mem_append, h.values, List.map_append, List.mem_append]
      rfl
    · intro t
      simp only [out, List.map_append, bag_append]
      have := h.bag t
      unfold out at this
      rw [this]
      rfl

theorem Inv.fold {enum : Nat → List Nat} (he : Enum enum) (input : List Row) : Inv (input.foldl (Distinct.addRow enum) HT.empty) input := by
  have key : ∀ (rest done : List Row) (s : HT), Inv s done → Inv (rest.foldl (Distinct.addRow enum) s) (done ++ rest) := by
    intro rest
    induction rest with
    | nil => intro d s h; simpa using h
    | cons r rest ih =>
      intro d s h
      have := ih (d ++ [r]) _ (h.addRow he r)
      simpa using this
  simpa using key input [] _ Inv.empty

theorem filterMap_range (l : List Group) : ((List.range l.length).filterMap fun i => (l[i]?).map fun g => (g.count, g.values)) = out l := by
  induction l with
  | nil => rfl
  | cons a l ih =>
    rw [List.length_cons, List.range_succ_eq_map, List.filterMap_cons]
    simp only [List.getElem?_cons_zero, Option.map_some, List.filterMap_map]
    show _ :: (List.filterMap (fun i => Option.map (fun g => (g.count, g.values)) l[i]?) (List.range l.length)) = _
    rw [ih]
    rfl

/-- **C72 (DISTINCT).** For every input and every order of the memory: the rows are distinct, they are the rows of the input, and each has the number of all
its occurrences in the input. -/
theorem C72_distinct (enum : Nat → List Nat) (he : Enum enum) (input : List Row) :
    ((groupify enum input).map (·.2)).Nodup ∧ (∀ t, t ∈ (groupify enum input).map (·.2) ↔ t ∈ input.map (·.2)) ∧
      ∀ r ∈ groupify enum input, r.1 = bag input r.2 := by
  have h := Inv.fold he input
  generalize hs : input.foldl (Distinct.addRow enum) HT.empty = s at h
  have hp : (groupify enum input).Perm (out s.groups) := by
    unfold groupify
    rw [hs, ← filterMap_range]
    exact (he _).filterMap _
  have hv : (out s.groups).map (·.2) = s.groups.map (·.values) := by simp [out, Function.comp_def]
  have hnd : ((groupify enum input).map (·.2)).Nodup := by
    rw [(hp.map _).nodup_iff, hv]; exact h.nodup
  refine ⟨hnd, ?_, ?_⟩
  · intro t
    rw [(hp.map (·.2)).mem_iff, hv, h.values]
  · intro r hr
    rw [← h.bag, ← bag_perm hp]
    clear hp h hs hv
    generalize groupify enum input = l at hr hnd
    induction l with
    | nil => cases hr
    | cons a l ih =>
      rw [List.map_cons, List.nodup_cons] at hnd
      rw [bag_cons]
      rcases List.mem_cons.1 hr with rfl | hr
      · rw [if_pos rfl]
        have : bag l r.2 = 0 := by
          rcases Nat.eq_zero_or_pos (bag l r.2) with h | h
          · exact h
          · obtain ⟨q, a, b, _⟩ := bag_pos.1 h
            exact absurd (List.mem_map.2 ⟨q, a, b⟩) hnd.1
        omega
      · rw [if_neg, ih hr hnd.2, Nat.zero_add]
        intro e
        exact hnd.1 (List.mem_map.2 ⟨r, hr, e.symm⟩)

example : Enum (fun n => (List.range n).reverse) ∧
    groupify (fun n => (List.range n).reverse) [(2, [1, 5]), (1, [2, 5]), (3, [1, 5])] = [(1, [2, 5]), (5, [1, 5])] :=
  ⟨fun _ => List.reverse_perm _, by decide +kernel⟩

/-- More rows than the first table can hold. -/
example : (groupify List.range ((List.range 200).map fun i => (1, [i % 70]))).length = 70 := by decide +kernel

end Trident.Sparql.Distinct
