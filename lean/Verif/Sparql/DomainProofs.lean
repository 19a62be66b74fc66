import Verif.Sparql.Domain
/-! # Domains: lemmas -/
namespace Trident.Sparql.Domain

/-- Every entry of the filter has 64 bits. -/
def WF (d : Dom) : Prop := ∀ i, d.filter i < 2 ^ 64

theorem and_mask (e k : Nat) : (e &&& (1 <<< k) != 0) = e.testBit k := by
  rw [Nat.one_shiftLeft, Bool.eq_iff_iff, bne_iff_ne]
  constructor
  · intro h
    obtain ⟨j, hj⟩ := Nat.exists_testBit_of_ne_zero h
    rw [Nat.testBit_and, Nat.testBit_two_pow] at hj
    simp only [Bool.and_eq_true, decide_eq_true_eq] at hj
    rw [hj.2]; exact hj.1
  · intro h h0
    have := congrArg (fun x => x.testBit k) h0
    simp only [Nat.zero_testBit] at this
    rw [Nat.testBit_and, h, Nat.testBit_two_pow_self] at this
    cases this

/-- The bit of a value. -/
def bitOf (d : Dom) (v : Nat) : Bool := (d.filter (v % 8192 / 64)).testBit (v % 8192 % 64)

theorem couldQualify_iff (d : Dom) (v : Nat) : couldQualify d v = true ↔ d.min ≤ v ∧ v ≤ d.max ∧ bitOf d v = true := by
  unfold couldQualify slotOf maskOf bitOf
  rw [and_mask]
  split
  · simp; omega
  · have : d.min ≤ v ∧ v ≤ d.max := by omega
    simp [this]

theorem restrict_iff (d o : Dom) (v : Nat) : couldQualify (restrictTo d o) v = true ↔ couldQualify d v = true ∧ couldQualify o v = true := by
  rw [couldQualify_iff, couldQualify_iff, couldQualify_iff]
  unfold restrictTo bitOf
  simp only [Nat.testBit_and, Bool.and_eq_true]
  constructor
  · rintro ⟨a, b, c, e⟩
    split at a <;> split at b <;> refine ⟨⟨?_, ?_, c⟩, ?_, ?_, e⟩ <;> omega
  · rintro ⟨⟨a, b, c⟩, a', b', c'⟩
    refine ⟨?_, ?_, c, c'⟩ <;> split <;> omega

theorem sync_iff (d o : Dom) (v : Nat) : couldQualify (sync d o) v = true ↔ couldQualify d v = true ∧ couldQualify o v = true := restrict_iff d o v

theorem add_iff (d : Dom) (v w : Nat) (h : couldQualify d w = true ∨ w = v) : couldQualify (add d v) w = true := by
  rw [couldQualify_iff] at *
  unfold add bitOf slotOf maskOf at *
  simp only
  rcases h with ⟨a, b, c⟩ | rfl
  · refine ⟨?_, ?_, ?_⟩
    · split <;> omega
    · split <;> omega
    · split
      · rw [Nat.testBit_or, c]; rfl
      · exact c
  · refine ⟨?_, ?_, ?_⟩
    · split <;> omega
    · split <;> omega
    · rw [if_pos rfl, Nat.testBit_or, Nat.one_shiftLeft, Nat.testBit_two_pow_self, Bool.or_true]

theorem foldl_add (l : List Nat) (d : Dom) (w : Nat) (h : couldQualify d w = true ∨ w ∈ l) : couldQualify (l.foldl add d) w = true := by
  induction l generalizing d with
  | nil => simpa using h
  | cons x l ih =>
    rw [List.foldl_cons]
    apply ih
    rcases h with h | h
    · exact .inl (add_iff d x w (.inl h))
    · rcases List.mem_cons.1 h with rfl | h
      · exact .inl (add_iff d w w (.inr rfl))
      · exact .inr h

theorem wf_potential : WF potential := fun _ => by simp [potential]

theorem wf_restrict {d : Dom} (o : Dom) (h : WF d) : WF (restrictTo d o) := fun i => Nat.lt_of_le_of_lt Nat.and_le_left (h i)

theorem wf_add {d : Dom} (v : Nat) (h : WF d) : WF (add d v) := by
  intro i
  simp only [add]
  split
  · apply Nat.or_lt_two_pow (h i)
    unfold maskOf
    rw [Nat.one_shiftLeft]
    exact Nat.pow_lt_pow_right (by omega) (Nat.mod_lt _ (by omega))
  · exact h i

theorem wf_observed (l : List Nat) : WF (observed l) := by
  unfold observed
  suffices h : ∀ d, WF d → WF (l.foldl add d) from h _ fun _ => by simp [observedNone]
  induction l with
  | nil => exact fun d h => h
  | cons x l ih => exact fun d h => ih _ (wf_add x h)

/-! ## The next candidate -/

/-- The loop stops at the next bit. -/
theorem climb_spec (e : Nat) : ∀ (n k v : Nat), 64 ≤ n + k → (∃ j, k ≤ j ∧ j < 64 ∧ e.testBit j = true) → v < 2 ^ 64 →
    ∃ j, k ≤ j ∧ j < 64 ∧ e.testBit j = true ∧ (∀ i, k ≤ i → i < j → e.testBit i = false) ∧ climb e n (1 <<< k) v = (v + (j - k)) % 2 ^ 64 := by
  intro n
  induction n with
  | zero => intro k v h ⟨j, a, b, _⟩; omega
  | succ n ih =>
    intro k v h ⟨j, a, b, c⟩ hv
    rw [climb, and_mask]
    cases hk : e.testBit k with
    | true => exact ⟨k, Nat.le_refl _, by omega, hk, by omega, by simp; omega⟩
    | false =>
      have hj : k + 1 ≤ j := by
        rcases Nat.lt_or_ge k j with h | h
        · exact h
        · have : j = k := by omega
          subst this; rw [hk] at c; cases c
      have hm : 1 <<< k <<< 1 % 2 ^ 64 = 1 <<< (k + 1) := by
        rw [← Nat.shiftLeft_add, Nat.one_shiftLeft, Nat.mod_eq_of_lt]
        exact Nat.pow_lt_pow_right (by omega) (by omega)
      obtain ⟨j', a', b', c', d', e'⟩ := ih (k + 1) ((v + 1) % 2 ^ 64) (by omega) ⟨j, hj, b, c⟩ (Nat.mod_lt _ (by omega))
      refine ⟨j', by omega, b', c', ?_, ?_⟩
      · intro i h1 h2
        rcases Nat.eq_or_lt_of_le h1 with rfl | h1
        · exact hk
        · exact d' i h1 h2
      · simp only [Bool.false_eq_true, if_false]
        rw [hm, e']
        omega

/-- The part of a value that is skipped, and the value without overflow. -/
def Exact (d : Dom) (v u : Nat) : Prop := v ≤ u ∧ u < v + 8192 ∧ bitOf d u = true ∧ ∀ w, v ≤ w → w < u → bitOf d w = false

theorem bitOf_at (d : Dom) (q i j : Nat) (hi : i < 128) (hj : j < 64) : bitOf d (8192 * q + 64 * i + j) = (d.filter i).testBit j := by
  have h : (8192 * q + 64 * i + j) % 8192 = 64 * i + j := by omega
  unfold bitOf
  rw [h]
  congr 2 <;> omega

theorem split_value (w : Nat) : ∃ q i j, i < 128 ∧ j < 64 ∧ w = 8192 * q + 64 * i + j :=
  ⟨w / 8192, w % 8192 / 64, w % 8192 % 64, by omega, by omega, by omega⟩

theorem bit_of_ne {e : Nat} (hwf : e < 2 ^ 64) (h : e ≠ 0) : ∃ j, 0 ≤ j ∧ j < 64 ∧ e.testBit j = true := by
  obtain ⟨j, hj⟩ := Nat.exists_testBit_of_ne_zero h
  refine ⟨j, Nat.zero_le _, ?_, hj⟩
  rcases Nat.lt_or_ge j 64 with h | h
  · exact h
  · rw [Nat.testBit_lt_two_pow (Nat.lt_of_lt_of_le hwf (Nat.pow_le_pow_right (by omega) h))] at hj; cases hj

theorem modM (a b : Nat) : (a % 2 ^ 64 + b) % 2 ^ 64 = (a + b) % 2 ^ 64 := Nat.mod_add_mod a (2 ^ 64) b

/-- The scan over the entries. -/
theorem scan_spec (d : Dom) (hwf : WF d) (q s o v : Nat) (hs : s < 128) (ho : o < 64) (hv : v = 8192 * q + 64 * s + o)
    (hlow : ∀ j, o ≤ j → j < 64 → (d.filter s).testBit j = false) :
    (∃ u, Exact d v u ∧ scanEntries d s ((v + (64 - o)) % 2 ^ 64) = bounded d (u % 2 ^ 64)) ∨
      ((∀ w, bitOf d w = false) ∧ scanEntries d s ((v + (64 - o)) % 2 ^ 64) = top) := by
  unfold scanEntries nonZero
  match hf : (List.range' (s + 1) (128 - (s + 1))).find? fun i => d.filter i != 0 with
  | some i =>
    left
    rw [List.find?_range'_eq_some] at hf
    obtain ⟨h2, h3, h4⟩ := hf
    rw [List.mem_range'_1] at h3
    have hmod : ((v + (64 - o)) % 2 ^ 64 + 64 * (i - s - 1)) % 2 ^ 64 = (8192 * q + 64 * i) % 2 ^ 64 := by
      rw [modM]; congr 1; omega
    have hcl := climb_spec (d.filter i) 64 0 ((8192 * q + 64 * i) % 2 ^ 64) (by decide) (bit_of_ne (hwf i) (by simpa using h2)) (Nat.mod_lt _ (by decide))
    obtain ⟨j, _, b, c, e, f⟩ := hcl
    rw [Nat.sub_zero, modM] at f
    refine ⟨8192 * q + 64 * i + j, ⟨by omega, by omega, ?_, ?_⟩, ?_⟩
    · rw [bitOf_at d q i j (by omega) b]; exact c
    · intro w w1 w2
      obtain ⟨q', i', j', g1, g2, g3⟩ := split_value w
      have hq : q' = q := by omega
      subst hq
      rw [g3, bitOf_at d q' i' j' g1 g2]
      rcases Nat.lt_trichotomy i' i with h | h | h
      · rcases Nat.eq_or_lt_of_le (show s ≤ i' by omega) with g | g
        · rw [← g]; exact hlow _ (by omega) (by omega)
        · have := h4 i' (by omega) h
          simp only [Bool.not_eq_true', bne_eq_false_iff_eq] at this
          rw [this, Nat.zero_testBit]
      · rw [h]; exact e _ (by omega) (by omega)
      · omega
    · simp only
      rw [hmod]
      exact congrArg (bounded d) f
  | none =>
    rw [List.find?_range'_eq_none] at hf
    have hhi : ∀ i, s < i → i < 128 → d.filter i = 0 := by
      intro i h1 h2
      simpa using hf i (by omega) (by omega)
    simp only
    match hg : (List.range (s + 1)).find? fun i => d.filter i != 0 with
    | some i =>
      left
      rw [List.find?_range_eq_some] at hg
      obtain ⟨h2, h3, h4⟩ := hg
      rw [List.mem_range] at h3
      have hmod : (((v + (64 - o)) % 2 ^ 64 + 64 * (128 - s - 1)) % 2 ^ 64 + 64 * i) % 2 ^ 64 = (8192 * (q + 1) + 64 * i) % 2 ^ 64 := by
        rw [modM, Nat.add_assoc, modM]; congr 1; omega
      have hcl := climb_spec (d.filter i) 64 0 ((8192 * (q + 1) + 64 * i) % 2 ^ 64) (by decide) (bit_of_ne (hwf i) (by simpa using h2)) (Nat.mod_lt _ (by decide))
      obtain ⟨j, _, b, c, e, f⟩ := hcl
      rw [Nat.sub_zero, modM] at f
      have hji : i = s → j < o := by
        intro hi
        rcases Nat.lt_or_ge j o with h | h
        · exact h
        · rw [hi, hlow j h b] at c; cases c
      refine ⟨8192 * (q + 1) + 64 * i + j, ⟨by omega, by omega, ?_, ?_⟩, ?_⟩
      · rw [bitOf_at d (q + 1) i j (by omega) b]; exact c
      · intro w w1 w2
        obtain ⟨q', i', j', g1, g2, g3⟩ := split_value w
        rw [g3, bitOf_at d q' i' j' g1 g2]
        by_cases hq : q' = q
        · rcases Nat.eq_or_lt_of_le (show s ≤ i' by omega) with g | g
          · rw [← g]; exact hlow _ (by omega) (by omega)
          · rw [hhi _ g (by omega), Nat.zero_testBit]
        · have hq : q' = q + 1 := by omega
          rcases Nat.lt_trichotomy i' i with h | h | h
          · have := h4 i' h
            simp only [Bool.not_eq_true', bne_eq_false_iff_eq] at this
            rw [this, Nat.zero_testBit]
          · rw [h]; exact e _ (by omega) (by omega)
          · omega
      · simp only
        rw [hmod]
        exact congrArg (bounded d) f
    | none =>
      right
      rw [List.find?_range_eq_none] at hg
      refine ⟨?_, rfl⟩
      intro w
      obtain ⟨q', i', j', g1, g2, g3⟩ := split_value w
      rw [g3, bitOf_at d q' i' j' g1 g2]
      have : d.filter i' = 0 := by
        rcases Nat.lt_or_ge s i' with h | h
        · exact hhi _ h (by omega)
        · simpa using hg _ (by omega)
      rw [this, Nat.zero_testBit]

/-- The bits from `o` on. -/
theorem high_iff (e o : Nat) (ho : o < 64) : (e &&& (2 ^ 64 - 1 - (1 <<< o - 1)) != 0) = true ↔ ∃ j, o ≤ j ∧ j < 64 ∧ e.testBit j = true := by
  have hp : 2 ^ o < 2 ^ 64 := Nat.pow_lt_pow_right (by omega) ho
  have hp0 : 0 < 2 ^ o := Nat.two_pow_pos o
  have e1 : 2 ^ 64 - 1 - (1 <<< o - 1) = 2 ^ 64 - (2 ^ o - 1 + 1) := by rw [Nat.one_shiftLeft]; omega
  have e2 : 2 ^ o - 1 < 2 ^ 64 := by omega
  rw [e1, bne_iff_ne]
  constructor
  · intro h
    obtain ⟨j, hj⟩ := Nat.exists_testBit_of_ne_zero h
    rw [Nat.testBit_and, Nat.testBit_two_pow_sub_succ e2, Nat.testBit_two_pow_sub_one] at hj
    simp only [Bool.and_eq_true, decide_eq_true_eq, Bool.not_eq_true', decide_eq_false_iff_not] at hj
    exact ⟨j, by omega, hj.2.1, hj.1⟩
  · rintro ⟨j, a, b, c⟩ h
    have := congrArg (fun x => x.testBit j) h
    simp only [Nat.zero_testBit] at this
    rw [Nat.testBit_and, Nat.testBit_two_pow_sub_succ e2, Nat.testBit_two_pow_sub_one, c] at this
    simp [b] at this
    omega

/-- What the scans do, without the bounds: the next set bit, or there is none at all. -/
theorem nextFrom_spec (d : Dom) (hwf : WF d) (v : Nat) (hv : v < 2 ^ 64) (hmax : v ≤ d.max) :
    (∃ u, Exact d v u ∧ nextFrom d v = bounded d (u % 2 ^ 64)) ∨ ((∀ w, bitOf d w = false) ∧ nextFrom d v = top) := by
  obtain ⟨q, s, o, hs, ho, hq⟩ := split_value v
  have e1 : slotOf v = s := by unfold slotOf; omega
  have e2 : v % 8192 % 64 = o := by omega
  have e3 : maskOf v = 1 <<< o := by unfold maskOf; rw [e2]
  have hb : bitOf d v = (d.filter s).testBit o := by rw [hq, bitOf_at d q s o hs ho]
  unfold nextFrom
  simp only
  rw [e1, e2, e3, and_mask, ← hb]
  by_cases h0 : bitOf d v = true
  · left
    refine ⟨v, ⟨Nat.le_refl _, by omega, h0, by omega⟩, ?_⟩
    rw [if_pos h0, Nat.mod_eq_of_lt hv]
    unfold bounded
    rw [if_neg (by omega)]
  · rw [if_neg h0]
    by_cases h1 : (d.filter s &&& (2 ^ 64 - 1 - (1 <<< o - 1)) != 0) = true
    · rw [if_pos h1]
      left
      obtain ⟨j, a, b, c, e, f⟩ := climb_spec (d.filter s) 64 o v (by omega) ((high_iff _ o ho).1 h1) hv
      refine ⟨v + (j - o), ⟨by omega, by omega, ?_, ?_⟩, congrArg (bounded d) f⟩
      · rw [show v + (j - o) = 8192 * q + 64 * s + j by omega, bitOf_at d q s j hs b]; exact c
      · intro w w1 w2
        clear f
        obtain ⟨q', i', j', g1, g2, g3⟩ := split_value w
        have : q' = q := by omega
        have : i' = s := by omega
        rw [g3, bitOf_at d q' i' j' g1 g2, this]
        exact e _ (by omega) (by omega)
    · rw [if_neg h1]
      exact scan_spec d hwf q s o v hs ho hq fun j a b => by
        cases hj : (d.filter s).testBit j with
        | false => rfl
        | true => exact absurd ((high_iff _ o ho).2 ⟨j, a, b, hj⟩) h1

/-- No candidate is passed. -/
theorem next_sound (d : Dom) (hwf : WF d) (v : Nat) (hv : v < 2 ^ 64) (hmin : d.min < 2 ^ 64) (w : Nat) (h1 : v ≤ w) (h2 : w < nextCandidate d v) :
    w < top → couldQualify d w = false := by
  intro h3
  rw [← Bool.not_eq_true, couldQualify_iff]
  rintro ⟨a, b, c⟩
  unfold nextCandidate at h2
  simp only at h2
  generalize hu : (if v < d.min then d.min else v) = u at h2
  have hu' : u ≤ w ∧ u < 2 ^ 64 := by split at hu <;> omega
  rw [if_neg (by omega)] at h2
  rcases nextFrom_spec d hwf u hu'.2 (by omega) with ⟨x, ⟨p, q, r, s⟩, e⟩ | ⟨n, _⟩
  · rw [e] at h2
    rcases Nat.lt_or_ge w x with g | g
    · rw [s w hu'.1 g] at c; cases c
    · unfold bounded top at *
      rcases Nat.lt_or_ge x (2 ^ 64) with k | k
      · rw [Nat.mod_eq_of_lt k] at h2
        split at h2 <;> omega
      · omega
  · rw [n w] at c; cases c

/-- The result is a candidate, or there is none. -/
theorem next_candidate (d : Dom) (hwf : WF d) (v : Nat) (hv : v + 8192 ≤ 2 ^ 64) (hmin : d.min + 8192 ≤ 2 ^ 64) :
    nextCandidate d v = top ∨ v ≤ nextCandidate d v ∧ couldQualify d (nextCandidate d v) = true := by
  unfold nextCandidate
  simp only
  generalize hu : (if v < d.min then d.min else v) = u
  have hu' : v ≤ u ∧ d.min ≤ u ∧ u + 8192 ≤ 2 ^ 64 := by split at hu <;> omega
  split
  · exact .inl rfl
  · rcases nextFrom_spec d hwf u (by omega) (by omega) with ⟨x, ⟨p, q, r, s⟩, e⟩ | ⟨_, e⟩
    · rw [e, Nat.mod_eq_of_lt (by omega)]
      unfold bounded
      split
      · exact .inl rfl
      · right
        rw [couldQualify_iff]
        exact ⟨by omega, by omega, by omega, r⟩
    · exact .inl e

end Trident.Sparql.Domain
