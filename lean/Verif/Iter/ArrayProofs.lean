import Verif.Iter.Array
/-! Helper lemmas for `ArrayItr` (no property statements here). -/
namespace Trident.Arr

variable {l : List (Nat × Nat)}

/-- The pair at a position. -/
def pr (l : List (Nat × Nat)) (i : Nat) : Pair := (((get l i).1 : Int), ((get l i).2 : Int))

/-- The pairs from a position on. -/
def rem (l : List (Nat × Nat)) (i : Nat) : List Pair := (toI l).drop i

theorem pr_eq {i : Nat} (h : i < l.length) : pr l i = (toI l)[i]'(by simpa using h) := by
  simp [pr, get, toI, h]

theorem rem_cons {i : Nat} (h : i < l.length) : rem l i = pr l i :: rem l (i + 1) := by
  unfold rem
  rw [List.drop_eq_getElem_cons (by simpa using h), pr_eq h]

theorem rem_nil {i : Nat} (h : l.length ≤ i) : rem l i = [] := by
  unfold rem; exact List.drop_eq_nil_of_le (by simpa using h)

theorem rem_zero : rem l 0 = toI l := rfl

theorem pr_le (hs : Sorted (toI l)) {i j : Nat} (hij : i ≤ j) (hj : j < l.length) :
    Pair.le (pr l i) (pr l j) := by
  rcases Nat.lt_or_eq_of_le hij with h | h
  · rw [pr_eq hj, pr_eq (by omega)]
    exact hs.get_le (by simpa using hj) h
  · subst h; unfold Pair.le; omega

theorem rem_filter_skip {p : Pair → Bool} {a b : Nat} (hab : a ≤ b)
    (h : ∀ i, a ≤ i → i < b → i < l.length → p (pr l i) = false) : (rem l a).filter p = (rem l b).filter p := by
  induction b with
  | zero => rw [show a = 0 by omega]
  | succ b ih =>
    rcases Nat.lt_or_eq_of_le hab with h1 | h1
    · rw [ih (by omega) fun i h2 h3 h4 => h i h2 (by omega) h4]
      by_cases hb : b < l.length
      · rw [rem_cons hb, List.filter_cons_of_neg]
        simp [h b (by omega) (by omega) hb]
      · rw [rem_nil (i := b) (by omega), rem_nil (i := b + 1) (by omega)]
    · rw [h1]

theorem mem_rem {a : Nat} {q : Pair} (h : q ∈ rem l a) : ∃ i, a ≤ i ∧ i < l.length ∧ q = pr l i := by
  unfold rem at h
  obtain ⟨i, hi, rfl⟩ := List.getElem_of_mem h
  rw [List.length_drop, toI_length] at hi
  exact ⟨a + i, by omega, by omega, by rw [List.getElem_drop, pr_eq (by omega)]⟩

theorem initSkip_spec (c1 c2 : Int) (pos : Nat) (hp : pos ≤ l.length) :
    pos ≤ initSkip l c1 c2 pos ∧ initSkip l c1 c2 pos ≤ l.length ∧
    (∀ i, pos ≤ i → i < initSkip l c1 c2 pos → (pr l i).1 = c1 ∧ (pr l i).2 < c2) ∧
    (initSkip l c1 c2 pos < l.length →
      ¬ ((pr l (initSkip l c1 c2 pos)).1 = c1 ∧ (pr l (initSkip l c1 c2 pos)).2 < c2)) := by
  generalize hn : l.length - pos = n
  induction n generalizing pos with
  | zero =>
    unfold initSkip
    rw [if_neg (by omega)]
    exact ⟨by omega, hp, fun i h1 h2 => by omega, fun h => by omega⟩
  | succ n ih =>
    unfold initSkip
    rw [if_pos (by omega)]
    by_cases hc : ((get l pos).1 : Int) = c1 ∧ ((get l pos).2 : Int) < c2
    · rw [if_pos hc]
      obtain ⟨h1, h2, h3, h4⟩ := ih (pos + 1) (by omega) (by omega)
      refine ⟨by omega, h2, fun i h5 h6 => ?_, h4⟩
      by_cases hi : i = pos
      · subst hi; exact hc
      · exact h3 i (by omega) h6
    · rw [if_neg hc]
      exact ⟨by omega, hp, fun i h1 h2 => by omega, fun _ => hc⟩

theorem seekLoop_spec (c1 c2 : Int) (pos : Nat) (hp : pos ≤ l.length) :
    pos ≤ seekLoop l c1 c2 pos ∧ seekLoop l c1 c2 pos ≤ l.length ∧
    (∀ i, pos ≤ i → i < seekLoop l c1 c2 pos → Pair.lt (pr l i) (c1, c2)) ∧
    (seekLoop l c1 c2 pos < l.length → ¬ Pair.lt (pr l (seekLoop l c1 c2 pos)) (c1, c2)) := by
  generalize hn : l.length - pos = n
  induction n generalizing pos with
  | zero =>
    unfold seekLoop
    rw [if_neg (by omega)]
    exact ⟨by omega, hp, fun i h1 h2 => by omega, fun h => by omega⟩
  | succ n ih =>
    unfold seekLoop
    rw [if_pos (by omega)]
    by_cases hc : Pair.lt (((get l pos).1 : Int), ((get l pos).2 : Int)) (c1, c2)
    · rw [if_pos hc]
      obtain ⟨h1, h2, h3, h4⟩ := ih (pos + 1) (by omega) (by omega)
      refine ⟨by omega, h2, fun i h5 h6 => ?_, h4⟩
      by_cases hi : i = pos
      · subst hi; exact hc
      · exact h3 i (by omega) h6
    · rw [if_neg hc]
      exact ⟨by omega, hp, fun i h1 h2 => by omega, fun _ => hc⟩

/-- What the binary search returns: `f` is the first position at or after `start` whose first value is
at least `key`. -/
theorem binarySearch_spec (hs : Sorted (toI l)) (key start : Nat) (low high : Int) (h0 : (start : Int) ≤ low)
    (h1 : low ≤ high + 1) (h2 : high ≤ (l.length : Int) - 1)
    (h3 : ∀ i : Nat, start ≤ i → (i : Int) < low → (get l i).1 < key)
    (h4 : ∀ i : Nat, high < i → i < l.length → key < (get l i).1 ∨ ∃ j : Nat, low ≤ j ∧ (j : Int) ≤ high ∧
      (get l j).1 = key) :
    ∃ f : Nat, start ≤ f ∧ f ≤ l.length ∧ (∀ i : Nat, start ≤ i → i < f → (get l i).1 < key) ∧
      ((f < l.length ∧ (get l f).1 = key ∧ binarySearch l key l.length low high = f) ∨
       (f < l.length ∧ key < (get l f).1 ∧ binarySearch l key l.length low high = (f : Int) - 1) ∨
       (f = l.length ∧ binarySearch l key l.length low high = -(f : Int) - 1)) := by
  generalize hn : (high - low + 1).toNat = n
  induction n using Nat.strongRecOn generalizing low high with
  | _ n ih =>
    have mono : ∀ i j : Nat, i ≤ j → j < l.length → (get l i).1 ≤ (get l j).1 := by
      intro i j hij hj
      have := pr_le hs hij hj
      unfold Pair.le pr at this
      simp only at this
      omega
    unfold binarySearch
    by_cases hlh : low ≤ high
    · rw [if_pos hlh]
      have hm1 : low ≤ (low + high) / 2 := by omega
      have hm2 : (low + high) / 2 ≤ high := by omega
      generalize hm : (low + high) / 2 = mid at hm1 hm2
      simp only
      by_cases c1 : (get l mid.toNat).1 < key
      · rw [if_pos c1]
        refine ih _ ?_ (mid + 1) high (by omega) (by omega) h2 ?_ ?_ rfl
        · omega
        · intro i h5 h6
          have := mono i mid.toNat (by omega) (by omega)
          omega
        · intro i h5 h6
          rcases h4 i h5 h6 with h | ⟨j, h7, h8, h9⟩
          · exact .inl h
          · refine .inr ⟨j, ?_, h8, h9⟩
            by_cases hj : (j : Int) ≤ mid
            · have := mono j mid.toNat (by omega) (by omega); omega
            · omega
      · rw [if_neg c1]
        by_cases c2 : (get l mid.toNat).1 > key
        · rw [if_pos c2]
          refine ih _ ?_ low (mid - 1) h0 (by omega) (by omega) h3 ?_ rfl
          · omega
          · intro i h5 h6
            left
            have := mono mid.toNat i (by omega) h6
            omega
        · rw [if_neg c2]
          by_cases c3 : low ≠ mid
          · rw [if_pos c3]
            refine ih _ ?_ low mid h0 (by omega) (by omega) h3 ?_ rfl
            · omega
            · intro i h5 h6
              exact .inr ⟨mid.toNat, by omega, by omega, by omega⟩
          · rw [if_neg c3]
            refine ⟨mid.toNat, by omega, by omega, fun i h5 h6 => h3 i h5 (by omega), .inl ⟨by omega, by omega, by omega⟩⟩
    · rw [if_neg hlh]
      refine ⟨low.toNat, by omega, by omega, fun i h5 h6 => h3 i h5 (by omega), ?_⟩
      by_cases hle : low ≥ (l.length : Int)
      · rw [if_pos hle]
        right; right
        exact ⟨by omega, by omega⟩
      · rw [if_neg hle]
        right; left
        refine ⟨by omega, ?_, by omega⟩
        rcases h4 low.toNat (by omega) (by omega) with h | ⟨j, h7, h8, -⟩
        · exact h
        · omega

theorem binarySearch_full (hs : Sorted (toI l)) (key start : Nat) (hst : start ≤ l.length) :
    ∃ f : Nat, start ≤ f ∧ f ≤ l.length ∧ (∀ i : Nat, start ≤ i → i < f → (get l i).1 < key) ∧
      ((f < l.length ∧ (get l f).1 = key ∧ binarySearch l key l.length start ((l.length : Int) - 1) = f) ∨
       (f < l.length ∧ key < (get l f).1 ∧
          binarySearch l key l.length start ((l.length : Int) - 1) = (f : Int) - 1) ∨
       (f = l.length ∧ binarySearch l key l.length start ((l.length : Int) - 1) = -(f : Int) - 1)) :=
  binarySearch_spec hs key start start _ (by omega) (by omega) (by omega) (fun i h1 h2 => by omega)
    (fun i h1 h2 => by omega)

/-- The pairs that satisfy the constraints. -/
def sat (c1 c2 : Int) (p : Pair) : Bool := c1 == -1 || (p.1 == c1 && (c2 == -1 || p.2 == c2))

/-- In a sorted list the pairs that satisfy the constraints are next to each other. -/
theorem sat_contig (hs : Sorted (toI l)) {c1 c2 : Int} {i j k : Nat} (hij : i ≤ j) (hjk : j ≤ k) (hk : k < l.length)
    (hi : sat c1 c2 (pr l i) = true) (hj : sat c1 c2 (pr l j) = false) : sat c1 c2 (pr l k) = false := by
  have h1 := pr_le hs hij (by omega)
  have h2 := pr_le hs hjk hk
  unfold Pair.le at h1 h2
  rw [Bool.eq_false_iff]
  intro h3
  have hj' : ¬ (sat c1 c2 (pr l j) = true) := by simp [hj]
  apply hj'
  simp only [sat, Bool.or_eq_true, beq_iff_eq, Bool.and_eq_true] at hi h3 ⊢
  omega

theorem sat_none (hs : Sorted (toI l)) {c1 c2 : Int} {i j : Nat} (hij : i ≤ j) (hj : j < l.length)
    (hi : sat c1 c2 (pr l i) = true) (hn : sat c1 c2 (pr l j) = false) : (rem l j).filter (sat c1 c2) = [] := by
  rw [List.filter_eq_nil_iff]
  intro q hq
  obtain ⟨k, h1, h2, rfl⟩ := mem_rem hq
  simp [sat_contig hs hij h1 h2 hi hn]

/-- The test of `hasNext` at a position. -/
def ok (l : List (Nat × Nat)) (c1 c2 : Int) (pos : Nat) : Bool := decide (pos < l.length) && sat c1 c2 (pr l pos)

structure Inv (l : List (Nat × Nat)) (c1 c2 : Int) (s : St) : Prop where
  c1 : s.c1 = c1
  c2 : s.c2 = c2
  ign : s.ign = false
  le : s.pos ≤ l.length

theorem hasNext_eq {c1 c2 : Int} {s : St} (h : Inv l c1 c2 s) (hn : s.hnc = true → s.n = ok l c1 c2 s.pos) :
    hasNext l s = (ok l c1 c2 s.pos, { s with hnc := true, n := ok l c1 c2 s.pos }) := by
  obtain ⟨rfl, rfl, h3, h4⟩ := h
  unfold hasNext
  cases hc : s.hnc with
  | true =>
    rw [if_pos rfl, hn hc]
    have := hn hc
    cases s; simp_all
  | false =>
    simp only [Bool.false_eq_true, if_false, h3]
    have : (if s.c1 = -1 then decide (s.pos < l.length)
      else
        !(decide (s.pos = l.length) || decide (((get l s.pos).1 : Int) ≠ s.c1) ||
          (decide (s.c2 ≠ -1) && decide (((get l s.pos).2 : Int) ≠ s.c2)))) = ok l s.c1 s.c2 s.pos := by
      unfold ok sat pr
      by_cases h5 : s.c1 = -1
      · simp [h5]
      · rw [if_neg h5, Bool.eq_iff_iff]
        simp only [Bool.not_eq_true', Bool.or_eq_false_iff, decide_eq_false_iff_not, Bool.and_eq_false_iff,
          Bool.and_eq_true, decide_eq_true_eq, Bool.or_eq_true, beq_iff_eq]
        omega
    rw [this]

/-- The device for `ArrayItr`. -/
def drv (hs : Sorted (toI l)) (c1 c2 : Int) : Driver (itr l) (moveto l) where
  Good s out := Inv l c1 c2 s ∧ out = (rem l s.pos).filter (sat c1 c2) ∧ (s.hnc = true → s.n = ok l c1 c2 s.pos) ∧
    (ok l c1 c2 s.pos = false → out = [])
  At s e rest := Inv l c1 c2 s ∧ 0 < s.pos ∧ pr l (s.pos - 1) = e ∧ sat c1 c2 e = true ∧ s.hnc = false ∧
    s.v1 = e.1 ∧ s.v2 = e.2 ∧ rest = (rem l s.pos).filter (sat c1 c2)
  more := by
    rintro s out ⟨h1, rfl, h3, h4⟩ hn
    change (hasNext l s).1 = true at hn
    rw [hasNext_eq h1 h3] at hn
    simp only at hn
    have hok := hn
    unfold ok at hn
    simp only [Bool.and_eq_true, decide_eq_true_eq] at hn
    refine ⟨pr l s.pos, (rem l (s.pos + 1)).filter (sat c1 c2), by rw [rem_cons hn.1, List.filter_cons_of_pos hn.2], ?_⟩
    change _ ∧ _
    rw [show (itr l).next ((itr l).hasNext s).2 = next l (hasNext l s).2 from rfl, hasNext_eq h1 h3]
    exact ⟨⟨h1.c1, h1.c2, h1.ign, hn.1⟩, by simp [next], by simp [next], hn.2, rfl, rfl, rfl, rfl⟩
  done := by
    rintro s out ⟨h1, h2, h3, h4⟩ hn
    change (hasNext l s).1 = false at hn
    rw [hasNext_eq h1 h3] at hn
    exact h4 hn
  val := by
    rintro s e rest ⟨-, -, -, -, -, h1, h2, -⟩
    exact Prod.ext h1 h2
  good := by
    rintro s e rest ⟨h1, h2, rfl, h4, h5, -, -, rfl⟩
    refine ⟨h1, rfl, fun h => by simp [h5] at h, fun h => ?_⟩
    by_cases hp : s.pos < l.length
    · unfold ok at h
      simp only [hp, decide_true, Bool.true_and] at h
      exact sat_none hs (by omega) hp h4 h
    · rw [rem_nil (by omega)]; rfl
  suffix := by
    rintro s e rest ⟨h1, h2, rfl, h4, -, -, -, rfl⟩ d1 d2 -
    have h5 : s.pos - 1 < l.length := by have := h1.le; omega
    have : pr l (s.pos - 1) :: (rem l s.pos).filter (sat c1 c2) = (rem l (s.pos - 1)).filter (sat c1 c2) := by
      rw [rem_cons h5, List.filter_cons_of_pos h4, show s.pos - 1 + 1 = s.pos by omega]
    rw [this]
    apply Sorted.filter_ge_suffix
    exact ((List.drop_sublist _ _).trans (List.Sublist.refl _) |> hs.sublist).filter _
  seek := by
    rintro s e rest ⟨h1, h2, rfl, h4, h5, h6, h7, rfl⟩ d1 d2 -
    have hp : s.pos - 1 < l.length := by have := h1.le; omega
    have hall : pr l (s.pos - 1) :: (rem l s.pos).filter (sat c1 c2) = (rem l (s.pos - 1)).filter (sat c1 c2) := by
      rw [rem_cons hp, List.filter_cons_of_pos h4, show s.pos - 1 + 1 = s.pos by omega]
    rw [hall]
    unfold moveto
    by_cases hc : s.v1 ≥ d1 ∧ (s.ign ∨ s.v1 > d1 ∨ s.v2 ≥ d2)
    · rw [if_pos hc]
      have hok : ok l c1 c2 (s.pos - 1) = true := by simp [ok, hp, h4]
      refine ⟨⟨h1.c1, h1.c2, h1.ign, by simp only; omega⟩, ?_, fun _ => by simp [hok], fun h => ?_⟩
      · rw [List.filter_eq_self]
        intro q hq
        obtain ⟨k, g1, g2, rfl⟩ := mem_rem (List.mem_filter.1 hq).1
        have := pr_le hs g1 g2
        rw [h1.ign] at hc
        rw [h6, h7] at hc
        rw [decide_eq_true_eq]
        unfold Pair.le at *
        simp only [Bool.false_eq_true, false_or] at hc
        omega
      · rw [hok] at h; simp at h
    · rw [if_neg hc]
      have hlt : Pair.lt (pr l (s.pos - 1)) (d1, d2) := by
        rw [h1.ign, h6, h7] at hc
        simp only [Bool.false_eq_true, false_or] at hc
        unfold Pair.lt; omega
      have hd : 0 ≤ d1 := by
        unfold Pair.lt pr at hlt; simp only at hlt; omega
      obtain ⟨f, g1, g2, g3, g4⟩ := binarySearch_full hs d1.toNat s.pos h1.le
      -- the starting point of the linear search
      have hst : ∃ p0 : Nat, s.pos - 1 ≤ p0 ∧ p0 ≤ l.length ∧
          (let p := binarySearch l d1.toNat l.length s.pos ((l.length : Int) - 1)
           (if p < 0 then -p - 1 else p).toNat = p0) ∧
          ∀ i, s.pos - 1 ≤ i → i < p0 → Pair.lt (pr l i) (d1, d2) := by
        have hbelow : ∀ i, s.pos - 1 ≤ i → i < f → Pair.lt (pr l i) (d1, d2) := by
          intro i g5 g6
          by_cases hi : i = s.pos - 1
          · subst hi; exact hlt
          · have := g3 i (by omega) g6
            unfold Pair.lt pr; simp only; omega
        rcases g4 with ⟨-, -, e⟩ | ⟨-, -, e⟩ | ⟨-, e⟩
        · refine ⟨f, by omega, g2, ?_, hbelow⟩
          simp only [e]
          rw [if_neg (by omega)]; omega
        · refine ⟨f - 1, by omega, by omega, ?_, fun i g5 g6 => hbelow i g5 (by omega)⟩
          simp only [e]
          rw [if_neg (by omega)]; omega
        · refine ⟨f, by omega, g2, ?_, hbelow⟩
          simp only [e]
          rw [if_pos (by omega)]; omega
      obtain ⟨p0, q1, q2, q3, q4⟩ := hst
      simp only at q3
      simp only [q3]
      obtain ⟨r1, r2, r3, r4⟩ := seekLoop_spec d1 d2 p0 q2
      generalize seekLoop l d1 d2 p0 = q at *
      have hskip : ∀ i, s.pos - 1 ≤ i → i < q → Pair.lt (pr l i) (d1, d2) := by
        intro i t1 t2
        by_cases hi : i < p0
        · exact q4 i t1 hi
        · exact r3 i (by omega) t2
      have hge : ∀ i, q ≤ i → i < l.length → Pair.le (d1, d2) (pr l i) := by
        intro i t1 t2
        have u1 := pr_le hs t1 t2
        have u2 := r4 (by omega)
        unfold Pair.le Pair.lt at *
        omega
      refine ⟨⟨h1.c1, h1.c2, h1.ign, r2⟩, ?_, fun h => by simp at h, fun h => ?_⟩
      · rw [List.filter_filter, rem_filter_skip (b := q) (by omega)]
        · apply List.filter_congr
          intro x hx
          obtain ⟨k, t1, t2, rfl⟩ := mem_rem hx
          have := hge k t1 t2
          simp [this]
        · intro i t1 t2 _
          have := hskip i t1 t2
          rw [Bool.and_eq_false_iff]
          left
          rw [decide_eq_false_iff_not]
          unfold Pair.lt Pair.le at *; omega
      · rw [List.filter_eq_nil_iff]
        intro x hx
        obtain ⟨hx1, hx2⟩ := List.mem_filter.1 hx
        obtain ⟨k, t1, t2, rfl⟩ := mem_rem hx1
        rw [decide_eq_true_eq]
        intro hle
        have hk : q ≤ k := by
          apply Classical.byContradiction
          intro hc
          have := hskip k t1 (by omega)
          unfold Pair.lt Pair.le at *; omega
        have hq : q < l.length := by omega
        simp only [ok, hq, decide_true, Bool.true_and] at h
        have := sat_contig hs (i := s.pos - 1) (j := q) (k := k) (by omega) hk t2 h4 h
        simp [this] at hx2

theorem good_all (hs : Sorted (toI l)) (hne : l ≠ []) (c2 : Int) : (drv hs (-1) c2).Good (init l (-1) c2) (toI l) := by
  have hl : 0 < l.length := List.length_pos_iff.2 hne
  refine ⟨⟨rfl, rfl, rfl, by simp [init]⟩, ?_, fun _ => ?_, fun h => ?_⟩
  · change toI l = (toI l).filter _
    rw [List.filter_eq_self.2]
    intro x _; rfl
  · simp [init, ok, sat, hl]
  · simp [init, ok, sat, hl] at h

/-- First value fixed, and present. -/
theorem good_c1 (hs : Sorted (toI l)) (c : Nat) (hc : ∃ p ∈ l, p.1 = c) :
    (drv hs c (-1)).Good (init l c (-1)) ((toI l).filter fun p => p.1 == (c : Int)) := by
  obtain ⟨p, hp, rfl⟩ := hc
  obtain ⟨i, hi, rfl⟩ := List.getElem_of_mem hp
  have hget : (get l i).1 = l[i].1 := by simp [get, hi]
  obtain ⟨f, g1, g2, g3, g4⟩ := binarySearch_full hs l[i].1 0 (by omega)
  have hfi : f ≤ i := by
    apply Classical.byContradiction
    intro h
    have := g3 i (by omega) (by omega); omega
  have hf : (get l f).1 = l[i].1 ∧ binarySearch l l[i].1 l.length 0 ((l.length : Int) - 1) = f := by
    rcases g4 with ⟨-, h1, h2⟩ | ⟨-, h1, -⟩ | ⟨h1, -⟩
    · exact ⟨h1, h2⟩
    · have := pr_le hs hfi hi
      unfold Pair.le pr at this; simp only at this; omega
    · omega
  have hs0 : init l l[i].1 (-1) = ⟨f, -1, -1, l[i].1, -1, true, true, false, 0, 0⟩ := by
    unfold init
    rw [if_pos (by omega)]
    simp only [Int.toNat_natCast, hf.2]
    rw [if_pos (by omega)]
    simp
  have hok : ok l l[i].1 (-1) f = true := by
    simp [ok, sat, pr, hf.1]; omega
  rw [hs0]
  refine ⟨⟨rfl, rfl, rfl, g2⟩, ?_, fun _ => hok.symm, fun h => by rw [hok] at h; simp at h⟩
  simp only
  rw [← rem_zero, rem_filter_skip (b := f) (by omega)]
  · apply List.filter_congr
    intro x _
    simp only [sat]
    have : ((l[i].1 : Int) == -1) = false := by simp
    rw [this]; simp
  · intro j h1 h2 _
    have := g3 j (by omega) h2
    simp [pr]; omega

/-- Both values fixed, on a vector where all pairs have the first value. -/
theorem good_c12 (hs : Sorted (toI l)) (hne : l ≠ []) (c d : Nat) (hc : ∀ p ∈ l, p.1 = c) :
    (drv hs c d).Good (init l c d) ((toI l).filter fun p => p == ((c : Int), (d : Int))) := by
  have hl : 0 < l.length := List.length_pos_iff.2 hne
  have hget : ∀ i, i < l.length → (get l i).1 = c := by
    intro i hi
    simp only [get, hi, List.getElem?_eq_getElem, Option.getD_some]
    exact hc _ (List.getElem_mem hi)
  obtain ⟨f, g1, g2, g3, g4⟩ := binarySearch_full hs c 0 (by omega)
  have hf : f = 0 ∧ binarySearch l c l.length 0 ((l.length : Int) - 1) = 0 := by
    have hf0 : f = 0 := by
      apply Classical.byContradiction
      intro h
      have := g3 0 (by omega) (by omega)
      have := hget 0 hl
      omega
    subst hf0
    rcases g4 with ⟨-, h1, h2⟩ | ⟨-, h1, -⟩ | ⟨h1, -⟩
    · exact ⟨rfl, h2⟩
    · have := hget 0 hl; omega
    · omega
  obtain ⟨k1, k2, k3, k4⟩ := initSkip_spec (l := l) c d 0 (by omega)
  generalize hq : initSkip l c d 0 = q at *
  have hs0 : init l c d = ⟨q, -1, -1, c, d, true,
      decide (q < l.length) && decide (((get l q).2 : Int) = d), false, 0, 0⟩ := by
    unfold init
    rw [if_pos (by omega)]
    simp only [Int.toNat_natCast, hf.2]
    rw [if_pos (by omega), if_pos (by omega)]
    simp [hq]
  have hok : ok l c d q = (decide (q < l.length) && decide (((get l q).2 : Int) = d)) := by
    unfold ok
    by_cases h : q < l.length
    · have e := hget q h
      simp only [h, decide_true, Bool.true_and, sat, pr, e]
      rw [Bool.eq_iff_iff]
      simp
    · simp [h]
  rw [hs0]
  refine ⟨⟨rfl, rfl, rfl, k2⟩, ?_, fun _ => hok.symm, fun h => ?_⟩
  · simp only
    rw [← rem_zero, rem_filter_skip (b := q) (by omega)]
    · apply List.filter_congr
      intro x _
      simp only [sat]
      rw [Bool.eq_iff_iff]
      simp only [beq_iff_eq, Bool.or_eq_true, Bool.and_eq_true]
      constructor
      · rintro rfl; right; exact ⟨rfl, .inr rfl⟩
      · intro h
        apply Prod.ext <;> simp only <;> omega
    · intro j h1 h2 _
      have := k3 j (by omega) h2
      rw [Bool.eq_false_iff]
      intro h
      rw [beq_iff_eq] at h
      rw [h] at this
      simp only at this; omega
  · rw [List.filter_eq_nil_iff]
    intro x hx hxe
    rw [beq_iff_eq] at hxe
    subst hxe
    rw [← rem_zero] at hx
    obtain ⟨k, t1, t2, e⟩ := mem_rem hx
    have hkq : q ≤ k := by
      apply Classical.byContradiction
      intro hc
      have := k3 k (by omega) (by omega)
      rw [← e] at this; simp only at this; omega
    have hqk := pr_le hs hkq t2
    rw [← e] at hqk
    have h5 := k4 (by omega)
    have h6 := hget q (by omega)
    rw [hok] at h
    simp only [show q < l.length by omega, decide_true, Bool.true_and, decide_eq_false_iff_not] at h
    unfold Pair.le pr at hqk
    unfold pr at h5
    simp only at hqk h5
    omega

end Trident.Arr
