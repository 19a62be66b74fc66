import Verif.Sparql.Plan
import Verif.Props.Domain
import Verif.Props.HashJoin
/-! # Plans with domains: lemmas -/
namespace Trident.Sparql.Hash

/-- The test of the domains drops rows of the left side, and has no other effect. -/
theorem build_filter (ok : Tup → Bool) (left : List Row) : build ok left = build (fun _ => true) (left.filter fun r => ok r.2) := by
  unfold build
  generalize (⟨1024, fun _ => none⟩ : Table) = T
  induction left generalizing T with
  | nil => rfl
  | cons r left ih =>
    rw [List.foldlM_cons, List.filter_cons]
    cases h : ok r.2 with
    | false =>
      simp only [Bool.false_eq_true, if_false]
      rw [← ih]
      have : buildRow ok T r = some T := by unfold buildRow; rw [h]; rfl
      rw [this]; rfl
    | true =>
      simp only [if_true]
      rw [List.foldlM_cons]
      have : buildRow ok T r = buildRow (fun _ => true) T r := by unfold buildRow; rw [h]
      rw [this]
      congr 1
      funext T'
      exact ih T'

/-- **C69 (inner join, any domains).** Whatever rows of the left side the domains exclude, the join is the one of the other rows. -/
theorem C69_join_domains (ok : Tup → Bool) (wl wr reg0 : Nat) (left right : List Row)
    (hleft : ∀ l ∈ left, l.2 ≠ []) (hright : ∀ r ∈ right, r.2 ≠ []) (hbits : ∀ l ∈ left, ∀ x ∈ l.2, x < 2 ^ 64) :
    ∃ out, hashJoin ok false false wl wr reg0 left right = some out ∧ ∀ t, bag out t = bag (Spec.join (left.filter fun l => ok l.2) right) t := by
  have h := C69_join (fun _ => true) wl wr reg0 (left.filter fun l => ok l.2) right (fun l hl => hleft l (List.mem_filter.1 hl).1) hright
    (fun l hl => hbits l (List.mem_filter.1 hl).1) (fun _ _ h => by cases h)
  unfold hashJoin at h ⊢
  rw [build_filter]
  exact h

end Trident.Sparql.Hash

namespace Trident.Sparql.Plan
open Domain

theorem bag_filter (l : List Row) (p : Tup → Bool) (t : Tup) : bag (l.filter fun r => p r.2) t = if p t = true then bag l t else 0 := by
  induction l with
  | nil => simp [bag_nil]
  | cons r l ih =>
    rw [List.filter_cons, bag_cons]
    by_cases h : r.2 = t
    · subst h
      by_cases hp : p r.2 = true
      · rw [if_pos hp, bag_cons, ih, if_pos hp, if_pos hp]
      · rw [if_neg hp, ih, if_neg hp, if_neg hp]
    · rw [if_neg h, Nat.zero_add, ← ih]
      split
      · rw [bag_cons, if_neg h, Nat.zero_add]
      · rfl

/-- The pairs of a row of the join. -/
theorem bag_join (left right : List Row) (a b : Tup) (ha : ∀ l ∈ left, l.2.length = a.length) (hab : Spec.agree a b = true) :
    bag (Spec.join left right) (a ++ b) = bag left a * bag right b := by
  unfold Spec.join
  induction right with
  | nil => simp [bag_nil]
  | cons r right ih =>
    rw [List.flatMap_cons, bag_append, ih, bag_cons, Nat.mul_add]
    congr 1
    clear ih
    induction left with
    | nil => simp [bag_nil]
    | cons l left ihl =>
      have ihl := ihl fun x hx => ha x (List.mem_cons_of_mem _ hx)
      rw [bag_cons, Nat.add_mul, ← ihl, List.filter_cons]
      have hlen := ha l (by simp)
      by_cases h1 : l.2 = a
      · by_cases h2 : r.2 = b
        · rw [if_pos h1, if_pos h2, h1, h2, if_pos hab, List.map_cons, bag_cons]
          simp only
          rw [h1, if_pos rfl]
        · rw [if_neg h2, Nat.mul_zero, Nat.zero_add]
          split
          · rw [List.map_cons, bag_cons, if_neg, Nat.zero_add]
            exact fun h => h2 (List.append_inj h hlen).2
          · rfl
      · rw [if_neg h1, Nat.zero_mul, Nat.zero_add]
        split
        · rw [List.map_cons, bag_cons, if_neg, Nat.zero_add]
          exact fun h => h1 (List.append_inj h hlen).1
        · rfl

theorem consistent_map (vars : List Nat) (σ : Nat → Nat) : consistent vars (vars.map σ) = true := by
  induction vars with
  | nil => rfl
  | cons x vars ih =>
    rw [List.map_cons, consistent, ih, Bool.and_true, List.all_eq_true]
    intro p hp
    have : p.2 = σ p.1 := by
      clear ih
      induction vars with
      | nil => simp at hp
      | cons y vars ih =>
        rw [List.map_cons, List.zip_cons_cons] at hp
        rcases List.mem_cons.1 hp with rfl | hp
        · rfl
        · exact ih hp
    rw [this]
    by_cases h : p.1 = x
    · simp [h]
    · simp [h]

theorem mem_zip_map {vars : List Nat} {y : Nat} (σ : Nat → Nat) (hy : y ∈ vars) : (y, σ y) ∈ vars.zip (vars.map σ) := by
  induction vars with
  | nil => cases hy
  | cons z vars ih =>
    rw [List.map_cons, List.zip_cons_cons]
    rcases List.mem_cons.1 hy with rfl | hy
    · simp
    · exact List.mem_cons_of_mem _ (ih hy)

/-- A row whose equal variables have equal values comes from an assignment. -/
theorem exists_assignment (vars : List Nat) : ∀ (t : Tup), t.length = vars.length → consistent vars t = true → ∃ σ : Nat → Nat, t = vars.map σ := by
  induction vars with
  | nil =>
    intro t h _
    exact ⟨id, by simpa using h⟩
  | cons x vars ih =>
    intro t h hc
    match t, h with
    | v :: t, h =>
      rw [consistent, Bool.and_eq_true, List.all_eq_true] at hc
      obtain ⟨σ, hσ⟩ := ih t (by simpa using h) hc.2
      refine ⟨fun y => if y = x then v else σ y, ?_⟩
      rw [List.map_cons, if_pos rfl, hσ]
      congr 1
      apply List.map_congr_left
      intro y hy
      by_cases h : y = x
      · rw [if_pos h]
        have hm : (y, σ y) ∈ vars.zip t := by
          rw [hσ]
          exact mem_zip_map σ hy
        have := hc.1 _ hm
        simpa [h] using this
      · rw [if_neg h]

theorem col_map (vars : List Nat) (σ : Nat → Nat) (i : Nat) (h : i < vars.length) : col (vars.map σ) i = σ (col vars i) := by
  unfold col
  simp [List.getD_eq_getElem?_getD, List.getElem?_map, List.getElem?_eq_getElem h]

theorem pick_map (c vars : List Nat) (σ : Nat → Nat) (h : ∀ i ∈ c, i < vars.length) : pick c (vars.map σ) = (pick c vars).map σ := by
  unfold pick
  rw [List.map_map]
  apply List.map_congr_left
  intro i hi
  exact col_map vars σ i (h i hi)

/-- Choosing columns of rows that come from assignments does not mix rows up, if each variable is kept. -/
theorem bag_pick (c vars : List Nat) (hc : ∀ i ∈ c, i < vars.length) (hkeep : ∀ x ∈ vars, x ∈ pick c vars) (rows : List Row)
    (hr : ∀ r ∈ rows, ∃ τ : Nat → Nat, r.2 = vars.map τ) (σ : Nat → Nat) : bag (rows.map (pickRow c)) ((pick c vars).map σ) = bag rows (vars.map σ) := by
  induction rows with
  | nil => rfl
  | cons r rows ih =>
    rw [List.map_cons, bag_cons, bag_cons, ih fun x hx => hr x (List.mem_cons_of_mem _ hx)]
    congr 1
    obtain ⟨τ, hτ⟩ := hr r (by simp)
    have : (pickRow c r).2 = (pick c vars).map σ ↔ r.2 = vars.map σ := by
      unfold pickRow
      simp only
      rw [hτ, pick_map c vars τ hc]
      constructor
      · intro h
        apply List.map_congr_left
        intro x hx
        have := List.map_inj_left.1 h x (hkeep x hx)
        exact this
      · intro h
        apply List.map_congr_left
        intro x hx
        obtain ⟨i, hi, rfl⟩ := List.mem_map.1 hx
        have hlt := hc i hi
        rw [← col_map vars τ i hlt, ← col_map vars σ i hlt, h]
    by_cases h : r.2 = vars.map σ
    · rw [if_pos h, if_pos (this.2 h)]; rfl
    · rw [if_neg h, if_neg fun x => h (this.1 x)]

theorem qualifies_map (shared : Nat → Bool) (D : Doms) (vars : List Nat) (σ : Nat → Nat)
    (h : ∀ x, shared x = true → couldQualify (D x) (σ x) = true) : qualifies shared D vars (vars.map σ) = true := by
  induction vars with
  | nil => rfl
  | cons x vars ih =>
    rw [List.map_cons, qualifies, ih, Bool.and_true]
    cases hs : shared x with
    | false => rfl
    | true => simp [h x hs]

/-- The values of a row that is on the left side stay in the domains. -/
theorem restrictAll_ok (shared : Nat → Bool) (D0 : Doms) (vars : List Nat) (rows : List Row) (σ : Nat → Nat)
    (h0 : ∀ x, shared x = true → couldQualify (D0 x) (σ x) = true) (hrow : ∃ r ∈ rows, r.2 = vars.map σ) (is : List Nat) (his : ∀ i ∈ is, i < vars.length)
    (D : Doms) (hD : ∀ x, shared x = true → couldQualify (D x) (σ x) = true) :
    ∀ x, shared x = true → couldQualify (restrictAll shared D0 vars rows is D x) (σ x) = true := by
  induction is generalizing D with
  | nil => exact hD
  | cons i is ih =>
    rw [restrictAll]
    apply ih (fun j hj => his j (List.mem_cons_of_mem _ hj))
    intro y hy
    split
    · simp only
      split
      · rename_i e
        apply (C77_restrict _ _ _).2 (hD y hy)
        obtain ⟨r, hr, hrσ⟩ := hrow
        unfold seen
        rw [List.mem_map]
        refine ⟨r, ?_, ?_⟩
        · rw [List.mem_filter]
          refine ⟨hr, ?_⟩
          rw [hrσ, ← List.map_take]
          exact qualifies_map shared D0 _ σ h0
        · rw [hrσ, col_map vars σ i (his i (by simp)), e]
      · exact hD y hy
    · exact hD y hy

theorem restricted_ok (shared : Nat → Bool) (D : Doms) (vars : List Nat) (rows : List Row) (σ : Nat → Nat)
    (h0 : ∀ x, shared x = true → couldQualify (D x) (σ x) = true) (hrow : ∃ r ∈ rows, r.2 = vars.map σ) :
    ∀ x, shared x = true → couldQualify (restricted shared D vars rows x) (σ x) = true :=
  restrictAll_ok shared D vars rows σ h0 hrow _ (fun i hi => List.mem_range.1 hi) D h0

end Trident.Sparql.Plan
