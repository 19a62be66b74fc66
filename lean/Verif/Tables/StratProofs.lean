import Verif.Tables.Strat
/-! Lemmas about the layout chooser and about tables of any layout. -/
namespace Trident.Strat

/-! ## Reading of all layouts -/

theorem yields_map {σ τ α} {I : Itr σ α} {J : Itr τ α} (f : σ → τ)
    (h1 : ∀ s, J.hasNext (f s) = ((I.hasNext s).1, f (I.hasNext s).2))
    (h2 : ∀ s, J.next (f s) = f (I.next s)) (h3 : ∀ s, J.val (f s) = I.val s)
    {s l} (h : Yields I s l) : Yields J (f s) l := by
  induction l generalizing s with
  | nil => rw [yields_nil] at h ⊢; rw [h1]; exact h
  | cons x l ih =>
    rw [yields_cons] at h ⊢
    obtain ⟨a, b, c⟩ := h
    rw [h1]
    refine ⟨a, ?_, ?_⟩
    · rw [h2, h3]; exact b
    · rw [h2]; exact ih c

theorem yields_row {m w1 w2 s l} (h : Yields (Row.itr w1 w2 m) s l) :
    Yields (Tab.itr m) (.row w1 w2 s) l :=
  yields_map (Tab.row w1 w2) (fun _ => rfl) (fun _ => rfl) (fun _ => rfl) h

theorem yields_cluster {m w1 w2 wc s l} (h : Yields (Cluster.itr w1 w2 wc m) s l) :
    Yields (Tab.itr m) (.cluster w1 w2 wc s) l :=
  yields_map (Tab.cluster w1 w2 wc) (fun _ => rfl) (fun _ => rfl) (fun _ => rfl) h

theorem yields_column {m s l} (h : Yields (Column.itr m) s l) :
    Yields (Tab.itr m) (.column s) l :=
  yields_map Tab.column (fun _ => rfl) (fun _ => rfl) (fun _ => rfl) h

/-! ## The scan -/

/-- What the loop knows after `l`: `k` is the number of trailing pairs of the current group. -/
structure Scan.Inv (s : Scan) (l : List (Nat × Nat)) : Prop where
  m1 : ∀ p ∈ l, p.1 ≤ s.max1
  m2 : ∀ p ∈ l, p.2 ≤ s.max2
  le1 : ∀ b, (∀ p ∈ l, p.1 < b) → 0 < b → s.max1 < b
  le2 : ∀ b, (∀ p ∈ l, p.2 < b) → 0 < b → s.max2 < b
  grp : ∀ p ∈ l, (l.filter fun q => q.1 = p.1).length ≤ s.maxGroup
  cur : ∀ p ∈ l, (p.1 : Int) = s.prev → (l.filter fun q => q.1 = p.1).length ≤ s.curGroup
  top : ∀ p ∈ l, (p.1 : Int) ≤ s.prev
  nonempty : s.prev = -1 ∨ ∃ p ∈ l, (p.1 : Int) = s.prev

theorem Scan.Inv.step {s : Scan} {l : List (Nat × Nat)} (h : s.Inv l) (p : Nat × Nat)
    (hp : ∀ q ∈ l, q.1 ≤ p.1) : (s.step p).Inv (l ++ [p]) := by
  have hprev : s.prev ≤ (p.1 : Int) := by
    rcases h.nonempty with e | ⟨q, hq, e⟩
    · omega
    · have := hp q hq; omega
  have hlen : ((l ++ [p]).filter fun q => q.1 = p.1).length
      = (l.filter fun q => q.1 = p.1).length + 1 := by simp
  have hne : ∀ q : Nat × Nat, q.1 ≠ p.1 → ((l ++ [p]).filter fun r => r.1 = q.1).length
      = (l.filter fun r => r.1 = q.1).length := by
    intro q hq; simp [Ne.symm hq]
  have hcur : ((l ++ [p]).filter fun q => q.1 = p.1).length ≤ (s.step p).curGroup := by
    rw [hlen]
    simp only [Scan.step]
    split
    · rename_i hn
      simp only [ne_eq, decide_eq_true_eq] at hn
      have : (l.filter fun q => q.1 = p.1) = [] := by
        rw [List.filter_eq_nil_iff]
        intro q hq e
        have h1 := h.top q hq
        simp only [decide_eq_true_eq] at e
        omega
      rw [this]; simp
    · rename_i hn
      simp only [ne_eq, decide_eq_true_eq, Decidable.not_not] at hn
      rcases h.nonempty with e | ⟨q, hq, e⟩
      · omega
      · have h1 := h.cur q hq e
        have : q.1 = p.1 := by omega
        rw [this] at h1; omega
  have hdef : (s.step p).maxGroup = if (s.step p).curGroup > s.maxGroup then (s.step p).curGroup
      else s.maxGroup := rfl
  have hmaxcur : (s.step p).curGroup ≤ (s.step p).maxGroup := by
    rw [hdef]; split <;> omega
  have hmax : s.maxGroup ≤ (s.step p).maxGroup := by
    rw [hdef]; split <;> omega
  constructor
  · intro q hq
    simp only [Scan.step]
    rcases List.mem_append.1 hq with hq | hq
    · have := h.m1 q hq; split <;> omega
    · simp only [List.mem_singleton] at hq; subst hq; split <;> omega
  · intro q hq
    simp only [Scan.step]
    rcases List.mem_append.1 hq with hq | hq
    · have := h.m2 q hq; split <;> omega
    · simp only [List.mem_singleton] at hq; subst hq; split <;> omega
  · intro b hb hb0
    simp only [Scan.step]
    have h1 := h.le1 b (fun q hq => hb q (by simp [hq])) hb0
    have h2 := hb p (by simp)
    split <;> omega
  · intro b hb hb0
    simp only [Scan.step]
    have h1 := h.le2 b (fun q hq => hb q (by simp [hq])) hb0
    have h2 := hb p (by simp)
    split <;> omega
  · intro q hq
    by_cases e : q.1 = p.1
    · rw [e]; omega
    · rw [hne q e]
      rcases List.mem_append.1 hq with hq | hq
      · have := h.grp q hq; omega
      · simp only [List.mem_singleton] at hq; subst hq; simp at e
  · intro q hq e
    have : (s.step p).prev = p.1 := by
      simp only [Scan.step]; split
      · rfl
      · rename_i hn
        simp only [ne_eq, decide_eq_true_eq, Decidable.not_not] at hn; omega
    have : q.1 = p.1 := by omega
    rw [this]; exact hcur
  · intro q hq
    have : (s.step p).prev = p.1 := by
      simp only [Scan.step]; split
      · rfl
      · rename_i hn
        simp only [ne_eq, decide_eq_true_eq, Decidable.not_not] at hn; omega
    rw [this]
    rcases List.mem_append.1 hq with hq | hq
    · have := hp q hq; omega
    · simp only [List.mem_singleton] at hq; subst hq; omega
  · right
    refine ⟨p, by simp, ?_⟩
    simp only [Scan.step]; split
    · rfl
    · rename_i hn
      simp only [ne_eq, decide_eq_true_eq, Decidable.not_not] at hn; omega

theorem Scan.inv_init : Scan.Inv {} [] := by
  constructor <;> simp

theorem Scan.inv_foldl {l : List (Nat × Nat)} (hs : l.Pairwise fun p q => p.1 ≤ q.1) :
    (l.foldl Scan.step {}).Inv l := by
  suffices ∀ (r d : List (Nat × Nat)) (s : Scan), s.Inv d → (d ++ r).Pairwise (fun p q => p.1 ≤ q.1) →
      (r.foldl Scan.step s).Inv (d ++ r) by simpa using this l [] {} Scan.inv_init hs
  intro r
  induction r with
  | nil => intro d s h _; simpa using h
  | cons p r ih =>
    intro d s h hp
    have := ih (d ++ [p]) (s.step p) (h.step p fun q hq => ?_) (by simpa using hp)
    · simpa using this
    · exact (List.pairwise_append.1 hp).2.2 q hq p (by simp)

/-! ## Widths -/

theorem flag_le (n : Nat) : flag n ≤ 3 := by unfold flag; split <;> (try split) <;> (try split) <;> omega

/-- The field of a value that needs at most five bytes is wide enough. -/
theorem nbytes_cap {n : Nat} (hn : n < 256 ^ 5) : n < (flagWidth (flag (nbytes n))).cap := by
  have h := lt_pow_nbytes n
  have h5 := nbytes_le (k := 5) (by omega) hn
  have hp := nbytes_pos n
  unfold flag
  by_cases h1 : nbytes n = 1
  · rw [if_pos h1]; rw [h1] at h; simpa [flagWidth, Width.cap, Width.size] using h
  rw [if_neg h1]
  by_cases h2 : nbytes n = 2
  · rw [if_pos h2]; rw [h2] at h; simpa [flagWidth, Width.cap, Width.size] using h
  rw [if_neg h2]
  by_cases h3 : nbytes n < 5
  · rw [if_pos h3]
    have : 256 ^ nbytes n ≤ 256 ^ 4 := Nat.pow_le_pow_right (by omega) (by omega)
    simp only [flagWidth, Width.cap, Width.size]; omega
  · rw [if_neg h3]; simpa [flagWidth, Width.cap, Width.size] using hn

theorem cap_safe {w : Width} {n : Nat} (h : n < w.cap) (h39 : n < 2 ^ 39) : n < w.safe := by
  cases w <;> simp [Width.cap, Width.size, Width.safe] at h ⊢ <;> omega


end Trident.Strat
