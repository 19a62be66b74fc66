import Verif.Snap.Common
/-!
# C120: the number of common neighbours
-/
namespace Trident.Snap

/-- The bytes of a list of neighbours: the node in `w` bytes and one more byte. -/
def listBytes (w : Nat) (l : List (Nat × UInt8)) : List UInt8 := l.flatMap fun r => encBE w r.1 ++ [r.2]

/-- A list of neighbours in memory: ascending nodes, that fit in `w` bytes. -/
structure Nbrs (m : Mem) (p w : Nat) (l : List (Nat × UInt8)) : Prop where
  bytes : Placed m p (listBytes w l)
  fits : ∀ r ∈ l, r.1 < 256 ^ w
  asc : l.Pairwise fun a b => a.1 < b.1

/-- The number of nodes in both lists. -/
def commonCount (l1 l2 : List (Nat × UInt8)) : Nat :=
  (l1.filter fun r => decide (r.1 ∈ l2.map (·.1))).length

/-- All bytes of the number are below 128. -/
def SmallBytes (n : Nat) : Prop := ∀ i, n / 256 ^ i % 256 < 128

theorem cmpBytes_spec (m : Mem) (w : Nat) : ∀ (a b x y : Nat), Placed m a (encBE w x) → Placed m b (encBE w y) →
    (cmpBytes m w a b = 0 ↔ x % 256 ^ w = y % 256 ^ w) ∧
    (SmallBytes x → SmallBytes y → (0 < cmpBytes m w a b ↔ y % 256 ^ w < x % 256 ^ w)) := by
  induction w with
  | zero => intro a b x y _ _; simp [cmpBytes, Nat.mod_one]
  | succ w ih =>
    intro a b x y hx hy
    simp only [encBE] at hx hy
    rw [placed_cons] at hx hy
    obtain ⟨hx1, hx2⟩ := hx
    obtain ⟨hy1, hy2⟩ := hy
    have ih := ih _ _ x y hx2 hy2
    have e1 := Nat.mod_pow_succ (x := x) (b := 256) (k := w)
    have e2 := Nat.mod_pow_succ (x := y) (b := 256) (k := w)
    have hB : 0 < 256 ^ w := Nat.pow_pos (by decide)
    have r1 := Nat.mod_lt x hB
    have r2 := Nat.mod_lt y hB
    have t1 : (m a).toNat = x / 256 ^ w % 256 := by rw [hx1]; simp
    have t2 : (m b).toNat = y / 256 ^ w % 256 := by rw [hy1]; simp
    have s1 : SmallBytes x → x / 256 ^ w % 256 < 128 := fun h => h w
    have s2 : SmallBytes y → y / 256 ^ w % 256 < 128 := fun h => h w
    rw [e1, e2]
    have hlt : ∀ p q : Nat, p < q → 256 ^ w * p + 256 ^ w ≤ 256 ^ w * q := by
      intro p q h
      have := Nat.mul_le_mul_left (256 ^ w) (Nat.succ_le_of_lt h)
      rwa [Nat.mul_succ] at this
    unfold cmpBytes
    by_cases he : m a = m b
    · rw [if_neg (by simpa using he)]
      rw [he] at t1
      rw [← t1, ← t2]
      refine ⟨by rw [ih.1]; omega, fun h1 h2 => ?_⟩
      rw [ih.2 h1 h2]
      omega
    · rw [if_pos he]
      have hne : x / 256 ^ w % 256 ≠ y / 256 ^ w % 256 := by
        rw [← t1, ← t2]
        exact fun h => he (UInt8.toNat_inj.1 h)
      have hsb : sb (m a) - sb (m b) ≠ 0 := by
        unfold sb
        rw [t1, t2]
        have := Nat.mod_lt (x / 256 ^ w) (y := 256) (by decide)
        have := Nat.mod_lt (y / 256 ^ w) (y := 256) (by decide)
        split <;> split <;> omega
      refine ⟨?_, fun h1 h2 => ?_⟩
      · constructor
        · intro h
          unfold sgn at h
          split at h
          · omega
          · split at h <;> omega
        · intro h
          exfalso
          rcases Nat.lt_or_gt_of_ne hne with h3 | h3
          · have := hlt _ _ h3; omega
          · have := hlt _ _ h3; omega
      · have hs : sb (m a) - sb (m b) = ((x / 256 ^ w % 256 : Nat) : Int) - (y / 256 ^ w % 256 : Nat) := by
          unfold sb
          rw [t1, t2, if_pos (s1 h1), if_pos (s2 h2)]
        rw [hs]
        unfold sgn
        rcases Nat.lt_or_gt_of_ne hne with h3 | h3
        · have := hlt _ _ h3
          constructor
          · intro h4
            split at h4
            · omega
            · split at h4 <;> omega
          · omega
        · have := hlt _ _ h3
          rw [if_pos (by omega)]
          omega

theorem cmpBytes_sign (m : Mem) (w : Nat) : ∀ a b, cmpBytes m w a b = 1 ∨ cmpBytes m w a b = 0 ∨ cmpBytes m w a b = -1 := by
  induction w with
  | zero => intro a b; simp [cmpBytes]
  | succ w ih =>
    intro a b
    unfold cmpBytes
    split
    · unfold sgn
      split
      · simp
      · split <;> simp
    · exact ih _ _

theorem encBE_add (d w n : Nat) : encBE (d + w) n = encBE d (n / 256 ^ w) ++ encBE w n := by
  induction d with
  | zero => simp [encBE]
  | succ d ih =>
    rw [show d + 1 + w = (d + w) + 1 from by omega]
    simp only [encBE, List.cons_append, ih]
    rw [Nat.div_div_eq_div_mul, Nat.pow_add, Nat.mul_comm (256 ^ d)]

theorem leading_spec (m : Mem) (d : Nat) : ∀ (a n : Nat), Placed m a (encBE d n) →
    (leading m d a = true ↔ n % 256 ^ d ≠ 0) := by
  induction d with
  | zero => intro a n _; simp [leading, Nat.mod_one]
  | succ d ih =>
    intro a n h
    simp only [encBE] at h
    rw [placed_cons] at h
    have ih := ih _ n h.2
    have e1 := Nat.mod_pow_succ (x := n) (b := 256) (k := d)
    have hB : 0 < 256 ^ d := Nat.pow_pos (by decide)
    have t1 : (m a).toNat = n / 256 ^ d % 256 := by rw [h.1]; simp
    unfold leading
    rw [Bool.or_eq_true, ih, decide_eq_true_eq, e1]
    have hz : m a ≠ 0 ↔ n / 256 ^ d % 256 ≠ 0 := by
      rw [← t1]
      refine not_congr ?_
      constructor
      · intro h; rw [h]; rfl
      · intro h; exact UInt8.toNat_inj.1 h
    rw [hz]
    constructor
    · rintro (h1 | h1)
      · have := Nat.mul_pos hB (Nat.pos_of_ne_zero h1)
        omega
      · omega
    · intro h1
      by_cases h2 : n / 256 ^ d % 256 = 0
      · rw [h2] at h1
        right
        simpa using h1
      · exact .inl h2

/-- The comparison of two nodes: equality is right, and the order is if all bytes are small. -/
theorem nativeCmp_spec {m : Mem} {w1 w2 a b x y : Nat} (hx : Placed m a (encBE w1 x)) (hy : Placed m b (encBE w2 y))
    (fx : x < 256 ^ w1) (fy : y < 256 ^ w2) :
    (nativeCmp m ((w1 : Int) - w2) (min w1 w2) a b = 0 ↔ x = y) ∧
    (SmallBytes x → SmallBytes y → (0 < nativeCmp m ((w1 : Int) - w2) (min w1 w2) a b ↔ y < x)) := by
  unfold nativeCmp
  rcases Nat.lt_trichotomy w1 w2 with h | h | h
  · rw [if_neg (by omega), if_pos (by omega)]
    have hd : (-((w1 : Int) - w2)).toNat = w2 - w1 := by omega
    rw [hd, Nat.min_eq_left (by omega)]
    obtain ⟨d, rfl⟩ := Nat.exists_eq_add_of_lt h
    rw [show w1 + d + 1 - w1 = d + 1 from by omega]
    rw [show w1 + d + 1 = (d + 1) + w1 from by omega] at hy fy
    rw [encBE_add, placed_append, encBE_length] at hy
    have hl := leading_spec m (d + 1) b _ hy.1
    have hq : y / 256 ^ w1 < 256 ^ (d + 1) := by
      rw [Nat.pow_add, Nat.mul_comm] at fy
      exact Nat.div_lt_of_lt_mul fy
    rw [Nat.mod_eq_of_lt hq] at hl
    have hB : 0 < 256 ^ w1 := Nat.pow_pos (by decide)
    by_cases hc : leading m (d + 1) b = true
    · rw [if_pos hc]
      have hge : 256 ^ w1 ≤ y := by
        rcases Nat.lt_or_ge y (256 ^ w1) with h1 | h1
        · exact absurd (Nat.div_eq_of_lt h1) (hl.1 hc)
        · exact h1
      refine ⟨by omega, fun _ _ => by omega⟩
    · rw [if_neg hc]
      have hlt : y < 256 ^ w1 := by
        rcases Nat.lt_or_ge y (256 ^ w1) with h1 | h1
        · exact h1
        · exact absurd (hl.2 (Nat.ne_of_gt (Nat.div_pos h1 hB))) hc
      have := cmpBytes_spec m w1 a (b + (d + 1)) x y hx hy.2
      rwa [Nat.mod_eq_of_lt fx, Nat.mod_eq_of_lt hlt] at this
  · subst h
    rw [if_neg (by omega), if_neg (by omega), Nat.min_self]
    have := cmpBytes_spec m w1 a b x y hx hy
    rwa [Nat.mod_eq_of_lt fx, Nat.mod_eq_of_lt fy] at this
  · rw [if_pos (by omega)]
    have hd : ((w1 : Int) - w2).toNat = w1 - w2 := by omega
    rw [hd, Nat.min_eq_right (by omega)]
    obtain ⟨d, rfl⟩ := Nat.exists_eq_add_of_lt h
    rw [show w2 + d + 1 - w2 = d + 1 from by omega]
    rw [show w2 + d + 1 = (d + 1) + w2 from by omega] at hx fx
    rw [encBE_add, placed_append, encBE_length] at hx
    have hl := leading_spec m (d + 1) a _ hx.1
    have hq : x / 256 ^ w2 < 256 ^ (d + 1) := by
      rw [Nat.pow_add, Nat.mul_comm] at fx
      exact Nat.div_lt_of_lt_mul fx
    rw [Nat.mod_eq_of_lt hq] at hl
    have hB : 0 < 256 ^ w2 := Nat.pow_pos (by decide)
    by_cases hc : leading m (d + 1) a = true
    · rw [if_pos hc]
      have hge : 256 ^ w2 ≤ x := by
        rcases Nat.lt_or_ge x (256 ^ w2) with h1 | h1
        · exact absurd (Nat.div_eq_of_lt h1) (hl.1 hc)
        · exact h1
      refine ⟨by omega, fun _ _ => by omega⟩
    · rw [if_neg hc]
      have hlt : x < 256 ^ w2 := by
        rcases Nat.lt_or_ge x (256 ^ w2) with h1 | h1
        · exact h1
        · exact absurd (hl.2 (Nat.ne_of_gt (Nat.div_pos h1 hB))) hc
      have := cmpBytes_spec m w2 (a + (d + 1)) b x y hx.2 hy
      rwa [Nat.mod_eq_of_lt hlt, Nat.mod_eq_of_lt fy] at this

theorem nbrs_cons {m : Mem} {p w : Nat} {r : Nat × UInt8} {l : List (Nat × UInt8)} (h : Nbrs m p w (r :: l)) :
    Placed m p (encBE w r.1) ∧ r.1 < 256 ^ w ∧ (∀ q ∈ l, r.1 < q.1) ∧ Nbrs m (p + (w + 1)) w l := by
  obtain ⟨h1, h2, h3⟩ := h
  unfold listBytes at h1
  rw [List.flatMap_cons, placed_append, placed_append] at h1
  rw [List.pairwise_cons] at h3
  refine ⟨h1.1.1, h2 r List.mem_cons_self, h3.1, ?_, fun q hq => h2 q (List.mem_cons_of_mem _ hq), h3.2⟩
  have := h1.2
  simp only [List.length_append, encBE_length, List.length_singleton] at this
  exact this

theorem common_left {r : Nat × UInt8} {l1 l2 : List (Nat × UInt8)} (h : ∀ q ∈ l2, r.1 < q.1) :
    commonCount (r :: l1) l2 = commonCount l1 l2 := by
  unfold commonCount
  rw [List.filter_cons_of_neg]
  simp only [decide_eq_true_eq, List.mem_map, not_exists, not_and]
  intro q hq he
  have := h q hq
  omega

theorem common_right {r : Nat × UInt8} {l1 l2 : List (Nat × UInt8)} (h : ∀ q ∈ l1, r.1 < q.1) :
    commonCount l1 (r :: l2) = commonCount l1 l2 := by
  unfold commonCount
  congr 1
  apply List.filter_congr
  intro q hq
  have := h q hq
  rw [decide_eq_decide, List.map_cons, List.mem_cons]
  constructor
  · rintro (h1 | h1)
    · omega
    · exact h1
  · exact .inr

theorem common_both {r q : Nat × UInt8} {l1 l2 : List (Nat × UInt8)} (he : r.1 = q.1) (h : ∀ q ∈ l1, r.1 < q.1) :
    commonCount (r :: l1) (q :: l2) = commonCount l1 l2 + 1 := by
  have h1 := common_right (r := q) (l1 := l1) (l2 := l2) (fun a ha => he ▸ h a ha)
  rw [← h1]
  unfold commonCount
  rw [List.filter_cons_of_pos (by simp [he])]
  rfl

theorem common_left_le (r : Nat × UInt8) (l1 l2 : List (Nat × UInt8)) : commonCount l1 l2 ≤ commonCount (r :: l1) l2 := by
  unfold commonCount
  rw [List.filter_cons]
  split <;> simp

theorem common_right_le (r : Nat × UInt8) (l1 l2 : List (Nat × UInt8)) : commonCount l1 l2 ≤ commonCount l1 (r :: l2) := by
  induction l1 with
  | nil => simp [commonCount]
  | cons a l1 ih =>
    unfold commonCount at ih ⊢
    rw [List.filter_cons, List.filter_cons]
    split
    next h =>
      rw [if_pos (by simp only [decide_eq_true_eq] at h ⊢; exact List.mem_cons_of_mem _ h)]
      simp only [List.length_cons]
      omega
    next h =>
      split
      · simp only [List.length_cons]
        omega
      · exact ih

/-- The loop: never too many, and the right number if all bytes are small. -/
theorem countSame_spec {m : Mem} {w1 w2 : Nat} : ∀ (fuel p1 p2 count : Nat) (l1 l2 : List (Nat × UInt8)),
    Nbrs m p1 w1 l1 → Nbrs m p2 w2 l2 → l1.length + l2.length ≤ fuel →
    let c := countSame m ((w1 : Int) - w2) (min w1 w2) (p1 + l1.length * (w1 + 1)) w1 (p2 + l2.length * (w2 + 1)) w2 fuel p1 p2 count
    c ≤ count + commonCount l1 l2 ∧
      ((∀ r ∈ l1, SmallBytes r.1) → (∀ r ∈ l2, SmallBytes r.1) → c = count + commonCount l1 l2) := by
  intro fuel
  induction fuel with
  | zero =>
    intro p1 p2 count l1 l2 _ _ hf
    have h1 : l1 = [] := List.length_eq_zero_iff.1 (by omega)
    subst h1
    simp [countSame, commonCount]
  | succ fuel ih =>
    intro p1 p2 count l1 l2 h1 h2 hf
    cases l1 with
    | nil => simp [countSame, commonCount]
    | cons r l1 =>
      cases l2 with
      | nil => simp [countSame, commonCount]
      | cons q l2 =>
        obtain ⟨a1, a2, a3, a4⟩ := nbrs_cons h1
        obtain ⟨b1, b2, b3, b4⟩ := nbrs_cons h2
        obtain ⟨c1, c2⟩ := nativeCmp_spec a1 b1 a2 b2
        have e1 : p1 + (r :: l1).length * (w1 + 1) = (p1 + (w1 + 1)) + l1.length * (w1 + 1) := by
          rw [List.length_cons, Nat.succ_mul]; omega
        have e2 : p2 + (q :: l2).length * (w2 + 1) = (p2 + (w2 + 1)) + l2.length * (w2 + 1) := by
          rw [List.length_cons, Nat.succ_mul]; omega
        simp only [List.length_cons] at hf
        intro c
        have hcond : p1 < p1 + (r :: l1).length * (w1 + 1) ∧ p2 < p2 + (q :: l2).length * (w2 + 1) := by
          rw [e1, e2]; omega
        have hc : c = if nativeCmp m ((w1 : Int) - w2) (min w1 w2) p1 p2 > 0 then
            countSame m ((w1 : Int) - w2) (min w1 w2) (p1 + (r :: l1).length * (w1 + 1)) w1 (p2 + (q :: l2).length * (w2 + 1)) w2 fuel p1 (p2 + (w2 + 1)) count
          else if nativeCmp m ((w1 : Int) - w2) (min w1 w2) p1 p2 < 0 then
            countSame m ((w1 : Int) - w2) (min w1 w2) (p1 + (r :: l1).length * (w1 + 1)) w1 (p2 + (q :: l2).length * (w2 + 1)) w2 fuel (p1 + (w1 + 1)) p2 count
          else countSame m ((w1 : Int) - w2) (min w1 w2) (p1 + (r :: l1).length * (w1 + 1)) w1 (p2 + (q :: l2).length * (w2 + 1)) w2 fuel (p1 + (w1 + 1)) (p2 + (w2 + 1)) (count + 1) := by
          show countSame m _ _ _ _ _ _ (fuel + 1) p1 p2 count = _
          rw [countSame, if_pos hcond]
        clear_value c
        subst hc
        split
        next hpos =>
          rw [e2]
          have := ih p1 (p2 + (w2 + 1)) count (r :: l1) l2 h1 b4 (by simp only [List.length_cons]; omega)
          refine ⟨Nat.le_trans this.1 (Nat.add_le_add_left (common_right_le _ _ _) _), fun s1 s2 => ?_⟩
          rw [this.2 s1 (fun a ha => s2 a (List.mem_cons_of_mem _ ha))]
          have hlt := (c2 (s1 r List.mem_cons_self) (s2 q List.mem_cons_self)).1 hpos
          rw [common_right]
          intro a ha
          rcases List.mem_cons.1 ha with rfl | ha
          · exact hlt
          · have := a3 a ha
            omega
        next hpos =>
          split
          next hneg =>
            rw [e1]
            have := ih (p1 + (w1 + 1)) p2 count l1 (q :: l2) a4 h2 (by simp only [List.length_cons]; omega)
            refine ⟨Nat.le_trans this.1 (Nat.add_le_add_left (common_left_le _ _ _) _), fun s1 s2 => ?_⟩
            rw [this.2 (fun a ha => s1 a (List.mem_cons_of_mem _ ha)) s2]
            have h3 := mt (c2 (s1 r List.mem_cons_self) (s2 q List.mem_cons_self)).2 hpos
            have h4 := mt c1.2 (by omega)
            rw [common_left]
            intro a ha
            rcases List.mem_cons.1 ha with rfl | ha
            · omega
            · have := b3 a ha
              omega
          next hneg =>
            have heq := c1.1 (by omega)
            rw [e1, e2, common_both heq a3]
            have := ih (p1 + (w1 + 1)) (p2 + (w2 + 1)) (count + 1) l1 l2 a4 b4 (by omega)
            refine ⟨by have := this.1; omega, fun s1 s2 => ?_⟩
            rw [this.2 (fun a ha => s1 a (List.mem_cons_of_mem _ ha)) (fun a ha => s2 a (List.mem_cons_of_mem _ ha))]
            omega

/-- The widths that are supported. -/
def Supported (w1 w2 : Nat) : Prop := w1 ≤ w2 + 4 ∧ w2 ≤ w1 + 4 ∧ 1 ≤ min w1 w2 ∧ min w1 w2 ≤ 5

/-- **C120 (common neighbours).** The number of common neighbours is right if all bytes of the
nodes are below 128. -/
theorem C120_common_partial {m : Mem} {p1 w1 p2 w2 : Nat} {l1 l2 : List (Nat × UInt8)}
    (h1 : Nbrs m p1 w1 l1) (h2 : Nbrs m p2 w2 l2) (hw : Supported w1 w2)
    (s1 : ∀ r ∈ l1, SmallBytes r.1) (s2 : ∀ r ∈ l2, SmallBytes r.1) :
    getCommon m p1 w1 l1.length p2 w2 l2.length = some (commonCount l1 l2) := by
  unfold Supported at hw
  unfold getCommon
  simp only
  rw [if_pos (by omega), (countSame_spec (l1.length + l2.length) p1 p2 0 l1 l2 h1 h2 (Nat.le_refl _)).2 s1 s2]
  simp

/-- **C120 (not too many).** For all nodes, the number is never too large. -/
theorem C120_upper {m : Mem} {p1 w1 p2 w2 : Nat} {l1 l2 : List (Nat × UInt8)}
    (h1 : Nbrs m p1 w1 l1) (h2 : Nbrs m p2 w2 l2) (hw : Supported w1 w2) :
    ∃ c, getCommon m p1 w1 l1.length p2 w2 l2.length = some c ∧ c ≤ commonCount l1 l2 := by
  unfold Supported at hw
  unfold getCommon
  simp only
  rw [if_pos (by omega)]
  refine ⟨_, rfl, ?_⟩
  have := (countSame_spec (l1.length + l2.length) p1 p2 0 l1 l2 h1 h2 (Nat.le_refl _)).1
  simpa using this

/-- **C120, violated.** Bytes are compared as numbers with sign: if the lists are `x, y` and `y`
with `x < 128 ≤ y < 256`, one node is common but 0 is returned. -/
theorem C120_sign_violated {m : Mem} {p1 p2 x y : Nat} {b1 b2 b3 : UInt8} (hx : x < 128) (hy : 128 ≤ y) (hy2 : y < 256)
    (h1 : Nbrs m p1 1 [(x, b1), (y, b2)]) (h2 : Nbrs m p2 1 [(y, b3)]) :
    commonCount [(x, b1), (y, b2)] [(y, b3)] = 1 ∧ getCommon m p1 1 2 p2 1 1 = some 0 := by
  constructor
  · unfold commonCount
    rw [List.filter_cons_of_neg (by simp; omega), List.filter_cons_of_pos (by simp)]
    rfl
  · have a := (nbrs_cons h1).1
    have b := (nbrs_cons h2).1
    simp only [encBE, Nat.pow_zero, Nat.div_one] at a b
    rw [placed_cons] at a b
    have ta : (m p1).toNat = x := by rw [a.1]; simp; omega
    have tb : (m p2).toNat = y := by rw [b.1]; simp; omega
    have hne : m p1 ≠ m p2 := by
      intro h
      rw [h, tb] at ta
      omega
    have hc : nativeCmp m 0 1 p1 p2 = 1 := by
      unfold nativeCmp
      rw [if_neg (by omega), if_neg (by omega)]
      unfold cmpBytes
      rw [if_pos hne]
      have sa : sb (m p1) = x := by unfold sb; rw [ta, if_pos hx]
      have sb' : sb (m p2) = (y : Int) - 256 := by unfold sb; rw [tb, if_neg (by omega)]
      unfold sgn
      rw [sa, sb', if_pos (by omega)]
    simp [getCommon, countSame, hc]

/-- **C120 (defined).** For the widths of all strategies the call returns a number. -/
theorem C120_defined (m : Mem) (t1 t2 : UInt8) (p1 s1 p2 s2 : Nat) :
    Supported (lenField t1) (lenField t2) ∧ getCommon m p1 (lenField t1) s1 p2 (lenField t2) s2 ≠ none := by
  have h : ∀ t, lenField t = 1 ∨ lenField t = 2 ∨ lenField t = 4 ∨ lenField t = 5 := by
    intro t
    unfold lenField
    split <;> simp
  have hs : Supported (lenField t1) (lenField t2) := by
    unfold Supported
    rcases h t1 with h1 | h1 | h1 | h1 <;> rcases h t2 with h2 | h2 | h2 | h2 <;> rw [h1, h2] <;> decide
  refine ⟨hs, ?_⟩
  unfold Supported at hs
  unfold getCommon
  simp only
  rw [if_pos (by omega)]
  simp

/-- **C120, violated.** If the labels have two bytes, the entries are not found: the first list
has the nodes `x < y`, the second one `y`, but 0 is returned (the low byte of the first label is
taken for a node). -/
theorem C120_label_violated {m : Mem} {p1 p2 x y : Nat} {h1 h2 l1 l2 h3 l3 : UInt8} (hx : x < y) (hy : y < 128)
    (hl : l1.toNat < y)
    (a : Placed m p1 (encBE 1 x ++ [h1, l1] ++ (encBE 1 y ++ [h2, l2]))) (b : Placed m p2 (encBE 1 y ++ [h3, l3])) :
    getCommon m p1 1 2 p2 1 1 = some 0 := by
  simp only [encBE, Nat.pow_zero, Nat.div_one, List.cons_append, List.nil_append] at a b
  simp only [placed_cons] at a b
  have ta : (m p1).toNat = x := by rw [a.1]; simp; omega
  have tb : (m p2).toNat = y := by rw [b.1]; simp; omega
  have tl : m (p1 + 1 + 1) = l1 := a.2.2.1
  have key : ∀ q, (m q).toNat < y → nativeCmp m 0 1 q p2 = -1 := by
    intro q hq
    unfold nativeCmp
    rw [if_neg (by omega), if_neg (by omega)]
    unfold cmpBytes
    have sa : sb (m q) = (m q).toNat := by unfold sb; rw [if_pos (by omega)]
    have sb' : sb (m p2) = (y : Int) := by unfold sb; rw [tb, if_pos (by omega)]
    rw [if_pos (by intro h; rw [h, tb] at hq; omega), sa, sb']
    unfold sgn
    rw [if_neg (by omega), if_pos (by omega)]
  have k1 := key p1 (by omega)
  have k2 := key (p1 + 2) (by rw [show p1 + 2 = p1 + 1 + 1 from rfl, tl]; exact hl)
  simp [getCommon, countSame, k1, k2]

/-! ## Concrete cases -/

/-- A memory with the list 1, 3, 300 in two bytes at 0, and 3, 5 in one byte at 9. -/
def exMem : Mem := fun a => ([0, 1, 9, 0, 3, 9, 1, 44, 9, 3, 9, 5, 9] : List UInt8).getD a 0

theorem ex1 : Nbrs exMem 0 2 [(1, 9), (3, 9), (300, 9)] := ⟨by unfold Placed; decide, by decide, by decide⟩
theorem ex2 : Nbrs exMem 9 1 [(3, 9), (5, 9)] := ⟨by unfold Placed; decide, by decide, by decide⟩

theorem small_of {n : Nat} (h : n < 65536) (h0 : n % 256 < 128) (h1 : n / 256 < 128) : SmallBytes n := by
  intro i
  match i with
  | 0 => simpa using h0
  | 1 => simp; omega
  | i + 2 =>
    have : n / 256 ^ (i + 2) = 0 := Nat.div_eq_of_lt (Nat.lt_of_lt_of_le h (Nat.pow_le_pow_right (n := 256) (by decide) (by omega : 2 ≤ i + 2)))
    rw [this]
    decide

example : getCommon exMem 0 2 3 9 1 2 = some 1 :=
  C120_common_partial ex1 ex2 (by unfold Supported; omega)
    (by intro r hr; simp at hr; rcases hr with rfl | rfl | rfl <;> exact small_of (by decide) (by decide) (by decide))
    (by intro r hr; simp at hr; rcases hr with rfl | rfl <;> exact small_of (by decide) (by decide) (by decide))

example : ∃ c, getCommon exMem 0 2 3 9 1 2 = some c ∧ c ≤ 1 := C120_upper ex1 ex2 (by unfold Supported; omega)

example : getCommon (fun a => ([100, 9, 200, 9, 200, 9] : List UInt8).getD a 0) 0 1 2 4 1 1 = some 0 :=
  (C120_sign_violated (x := 100) (y := 200) (b1 := 9) (b2 := 9) (b3 := 9) (by decide) (by decide) (by decide)
    ⟨by unfold Placed; decide, by decide, by decide⟩ ⟨by unfold Placed; decide, by decide, by decide⟩).2

example : lenField 0 = 1 ∧ lenField 8 = 2 ∧ lenField 16 = 4 ∧ lenField 24 = 5 := by decide

example : getCommon (fun a => ([7, 1, 2, 9, 1, 0, 9, 1, 0] : List UInt8).getD a 0) 0 1 2 6 1 1 = some 0 :=
  C120_label_violated (x := 7) (y := 9) (h1 := 1) (l1 := 2) (h2 := 1) (l2 := 0) (h3 := 1) (l3 := 0)
    (by decide) (by decide) (by decide) (by unfold Placed; decide) (by unfold Placed; decide)

end Trident.Snap
