import Verif.Tables.Row
/-! Lemmas about the row layout (no property statements here). -/
namespace Trident

/-! ### Pointer arithmetic -/
theorem ptr_lt {a i j B : Nat} (hB : 0 < B) : a + i * B < a + j * B ↔ i < j := by
  rw [Nat.add_lt_add_iff_left, Nat.mul_lt_mul_right hB]

theorem ptr_eq {a i j B : Nat} (hB : 0 < B) : a + i * B = a + j * B ↔ i = j := by
  rw [Nat.add_left_cancel_iff, Nat.mul_left_inj (by omega)]

theorem ptr_succ {a i B : Nat} : a + i * B + B = a + (i + 1) * B := by
  rw [Nat.add_mul]; omega

theorem ptr_sub_div {a i j B : Nat} (hB : 0 < B) :
    (a + j * B - (a + i * B)) / B = j - i := by
  rw [Nat.add_sub_add_left, ← Nat.sub_mul, Nat.mul_div_cancel _ hB]

/-- A pointer loop that advances by `B` while a condition on the row index holds. -/
theorem scan_loop {B a j : Nat} (f : Nat → Nat) (Q : Nat → Prop)
    (hQ : ∀ i, i ≤ j → Q i → i < j)
    (hf1 : ∀ i, i ≤ j → Q i → f (a + i * B) = f (a + (i + 1) * B))
    (hf2 : ∀ i, i ≤ j → ¬ Q i → f (a + i * B) = a + i * B)
    (i : Nat) (hi : i ≤ j) :
    ∃ i', i ≤ i' ∧ i' ≤ j ∧ f (a + i * B) = a + i' * B ∧ (∀ k, i ≤ k → k < i' → Q k) ∧ ¬ Q i' := by
  generalize hd : j - i = d
  induction d generalizing i with
  | zero =>
    refine ⟨i, Nat.le_refl _, hi, ?_, fun k h1 h2 => by omega, fun hq => ?_⟩
    · rw [hf2 i hi]; intro hq; have := hQ i hi hq; omega
    · have := hQ i hi hq; omega
  | succ d ih =>
    by_cases hq : Q i
    · have hlt := hQ i hi hq
      obtain ⟨i', h1, h2, h3, h4, h5⟩ := ih (i + 1) (by omega) (by omega)
      refine ⟨i', by omega, h2, ?_, fun k hk1 hk2 => ?_, h5⟩
      · rw [hf1 i hi hq, h3]
      · rcases Nat.eq_or_lt_of_le hk1 with h | h
        · subst h; exact hq
        · exact h4 k h hk2
    · exact ⟨i, Nat.le_refl _, hi, by rw [hf2 i hi hq], fun k h1 h2 => by omega, hq⟩

namespace Row
variable {w1 w2 : Width} {m : Mem}

/-- The rows `ps` are readable from address `a`. -/
def RowsAt (w1 w2 : Width) (m : Mem) (a : Nat) (ps : List Pair) : Prop :=
  ∀ i (h : i < ps.length), r1 w1 m (a + i * blk w1 w2) = ps[i].1 ∧
    r2 w1 w2 m (a + i * blk w1 w2) = ps[i].2

/-- All values of the list fit (and are read back by) the two fields. -/
def Fits (w1 w2 : Width) (l : List (Nat × Nat)) : Prop :=
  ∀ p ∈ l, p.1 < w1.safe ∧ p.2 < w2.safe

theorem encode_length (w1 w2 : Width) (l : List (Nat × Nat)) :
    (encode w1 w2 l).length = l.length * blk w1 w2 := by
  induction l with
  | nil => simp [encode]
  | cons p l ih =>
    simp only [encode, List.flatMap_cons, List.length_append, Width.enc_length, List.length_cons] at *
    rw [ih, Nat.add_mul]; unfold blk; omega

theorem rowsAt_of_placed {l : List (Nat × Nat)} {a : Nat} (hfit : Fits w1 w2 l)
    (h : Placed m a (encode w1 w2 l)) : RowsAt w1 w2 m a (toI l) := by
  induction l generalizing a with
  | nil => intro i hi; simp [toI] at hi
  | cons p l ih =>
    simp only [encode, List.flatMap_cons] at h
    rw [placed_append, placed_append] at h
    obtain ⟨⟨h1, h2⟩, h3⟩ := h
    have hp := hfit p (by simp)
    simp only [Width.enc_length, List.length_append] at h2 h3
    intro i hi
    cases i with
    | zero =>
      simp only [toI, List.map_cons, List.getElem_cons_zero, Nat.zero_mul, Nat.add_zero]
      exact ⟨w1.read_enc m a _ hp.1 h1, w2.read_enc m _ _ hp.2 h2⟩
    | succ i =>
      have := ih (a := a + (w1.size + w2.size)) (fun q hq => hfit q (by simp [hq])) h3 i
        (by simpa [toI] using hi)
      have e : a + (w1.size + w2.size) + i * blk w1 w2 = a + (i + 1) * blk w1 w2 := by
        rw [Nat.add_mul]; unfold blk; omega
      rw [e] at this
      simpa [toI] using this

/-- Narrowing keeps "start of the interval, or a row below `c1`". -/
theorem narrow_spec {ps a} (h : RowsAt w1 w2 m a ps) (c1 : Int) (i j : Nat)
    (hij : i ≤ j) (hj : j ≤ ps.length) :
    ∃ i', i ≤ i' ∧ i' ≤ j ∧
      narrow w1 w2 m c1 (a + i * blk w1 w2) (a + j * blk w1 w2) = a + i' * blk w1 w2 ∧
      (i' = i ∨ ∃ hl : i' < ps.length, ps[i'].1 < c1) := by
  have hB := blk_pos w1 w2
  generalize hd : j - i = d
  induction d using Nat.strongRecOn generalizing i j with
  | _ d ih =>
    rw [narrow]
    rw [ptr_sub_div hB]
    by_cases hgt : j - i > 64
    · rw [if_pos hgt]
      have em : a + i * blk w1 w2 + (j - i) / 2 * blk w1 w2 = a + (i + (j - i) / 2) * blk w1 w2 := by
        rw [Nat.add_mul]; omega
      simp only [em]
      have hm : i + (j - i) / 2 < ps.length := by omega
      rw [(h _ hm).1]
      by_cases hc : ps[i + (j - i) / 2].1 < c1
      · rw [if_pos hc]
        obtain ⟨i', p1, p2, p3, p4⟩ := ih (j - (i + (j - i) / 2)) (by omega) _ j (by omega) hj rfl
        refine ⟨i', by omega, p2, p3, ?_⟩
        rcases p4 with p4 | p4
        · subst p4; exact .inr ⟨hm, hc⟩
        · exact .inr p4
      · rw [if_neg hc]
        have e2 : a + (i + (j - i) / 2) * blk w1 w2 - blk w1 w2
            = a + (i + (j - i) / 2 - 1) * blk w1 w2 := by
          have : (i + (j - i) / 2) * blk w1 w2 = (i + (j - i) / 2 - 1) * blk w1 w2 + blk w1 w2 := by
            rw [← Nat.succ_mul]; congr 1; omega
          omega
        rw [e2]
        obtain ⟨i', p1, p2, p3, p4⟩ := ih (i + (j - i) / 2 - 1 - i) (by omega) i _ (by omega) (by omega) rfl
        exact ⟨i', p1, by omega, p3, p4⟩
    · rw [if_neg hgt]
      exact ⟨i, Nat.le_refl _, hij, rfl, .inl rfl⟩

/-- The linear phase starts at a row such that all earlier rows are below `c1`. -/
theorem searchStart_spec {ps a} (h : RowsAt w1 w2 m a ps) (hs : Sorted ps) (c1 : Int)
    (hne : ps ≠ []) :
    ∃ i', i' < ps.length ∧
      searchStart w1 w2 m c1 a (a + ps.length * blk w1 w2) = a + i' * blk w1 w2 ∧
      (∀ k (hk : k < ps.length), k < i' → ps[k].1 < c1) := by
  have hB := blk_pos w1 w2
  have hlen : 0 < ps.length := List.length_pos_iff.mpr hne
  unfold searchStart
  split
  · obtain ⟨i', p1, p2, p3, p4⟩ := narrow_spec h c1 0 ps.length (by omega) (Nat.le_refl _)
    simp only [Nat.zero_mul, Nat.add_zero] at p3
    rw [p3, back]
    rcases p4 with p4 | ⟨hl, p4⟩
    · subst p4
      refine ⟨0, hlen, ?_, fun k _ hk => by omega⟩
      rw [if_neg]; simp
    · refine ⟨i', hl, ?_, fun k hk hki => ?_⟩
      · rw [if_neg]
        rintro ⟨-, hc⟩
        rw [(h i' hl).1] at hc; omega
      · have := hs.fst_le hl (Nat.le_of_lt hki); omega
  · exact ⟨0, hlen, by simp, fun k _ hk => by omega⟩

/-- Iterating from row `i` to row `j` in normal mode. -/
theorem yields_slice {ps a} (h : RowsAt w1 w2 m a ps) (s : St) (i j : Nat) (hij : i ≤ j)
    (hj : j ≤ ps.length) (hign : s.ign = false) (hc : s.current = a + i * blk w1 w2)
    (he : s.stop = a + j * blk w1 w2) : Yields (itr w1 w2 m) s ((ps.take j).drop i) := by
  have hB := blk_pos w1 w2
  generalize hd : j - i = d
  induction d generalizing i s with
  | zero =>
    have : (ps.take j).drop i = [] := by rw [List.drop_eq_nil_iff]; simp; omega
    rw [this, yields_nil]
    simp only [itr, hasNext, hc, he, decide_eq_false_iff_not, ptr_lt hB]; omega
  | succ d ih =>
    have hi : i < ps.length := by omega
    have : (ps.take j).drop i = ps[i] :: (ps.take j).drop (i + 1) := by
      rw [List.drop_eq_getElem_cons (by simp; omega)]; simp
    rw [this, yields_cons]
    have hr := h i hi
    refine ⟨?_, ?_, ?_⟩
    · simp only [itr, hasNext, hc, he, decide_eq_true_eq, ptr_lt hB]; omega
    · simp only [itr, next, hign, hc]
      exact Prod.ext hr.1 hr.2
    · apply ih _ (i + 1) (by omega)
      · simp [itr, next, hign]
      · simp only [itr, next, hign, hc]; rw [← ptr_succ]; unfold blk; simp; omega
      · simp [itr, next, hign, he]
      · omega

theorem take_drop_all {α} (l : List α) : (l.take l.length).drop 0 = l := by simp

/-- A freshly opened iterator over the rows `i..j-1`, which are the pairs `l`. -/
def Range (w1 w2 : Width) (a : Nat) (ps : List Pair) (s : St) (l : List Pair) : Prop :=
  ∃ i j, i ≤ j ∧ j ≤ ps.length ∧ s = setup (a + i * blk w1 w2) (a + j * blk w1 w2) ∧
    l = (ps.take j).drop i

theorem Range.yields {ps a s l} (h : RowsAt w1 w2 m a ps) (hr : Range w1 w2 a ps s l) :
    Yields (itr w1 w2 m) s l := by
  obtain ⟨i, j, hij, hj, rfl, rfl⟩ := hr
  exact yields_slice h _ i j hij hj rfl rfl rfl

theorem Range.card {ps a s l} (hr : Range w1 w2 a ps s l) :
    (getCardinality w1 w2 m s).1 = (l.length : Int) := by
  obtain ⟨i, j, hij, hj, rfl, rfl⟩ := hr
  simp only [getCardinality, setup, Bool.false_eq_true, if_false, ptr_sub_div (blk_pos w1 w2),
    List.length_drop, List.length_take]
  omega

theorem setup_range {ps : List Pair} {a : Nat} :
    Range w1 w2 a ps (setup a (a + ps.length * blk w1 w2)) ps :=
  ⟨0, ps.length, by omega, Nat.le_refl _, by simp, by simp⟩

theorem setup_same_range {ps : List Pair} {a i : Nat} (hi : i ≤ ps.length) :
    Range w1 w2 a ps (setup (a + i * blk w1 w2) (a + i * blk w1 w2)) [] :=
  ⟨i, i, Nat.le_refl _, hi, rfl, by simp⟩

theorem lin1_spec {ps a} (h : RowsAt w1 w2 m a ps) (c1 : Int) (i : Nat) (hi : i < ps.length) :
    ∃ i', ∃ hl : i' < ps.length, i ≤ i' ∧
      lin1 w1 w2 m c1 (a + i * blk w1 w2) (a + ps.length * blk w1 w2) = a + i' * blk w1 w2 ∧
      (∀ k (hk : k < ps.length), i ≤ k → k < i' → ps[k].1 < c1) ∧
      (ps[i'].1 ≥ c1 ∨ i' + 1 = ps.length) := by
  have hB := blk_pos w1 w2
  obtain ⟨i', p1, p2, p3, p4, p5⟩ := scan_loop (B := blk w1 w2) (a := a) (j := ps.length - 1)
    (fun p => lin1 w1 w2 m c1 p (a + ps.length * blk w1 w2))
    (fun i => (∃ hl : i < ps.length, ps[i].1 < c1) ∧ i + 1 < ps.length)
    (fun i _ h => by omega)
    (fun i _ hq => by
      obtain ⟨⟨hl, hq⟩, hq2⟩ := hq
      rw [lin1, if_pos ⟨by rw [(h i hl).1]; exact hq, by rw [ptr_succ, ptr_lt hB]; exact hq2⟩, ptr_succ])
    (fun i hi' hq => by
      have hl : i < ps.length := by omega
      rw [lin1, if_neg]
      rintro ⟨x1, x2⟩
      rw [(h i hl).1] at x1; rw [ptr_succ, ptr_lt hB] at x2
      exact hq ⟨⟨hl, x1⟩, x2⟩) i (by omega)
  refine ⟨i', by omega, p1, p3, fun k hk hk1 hk2 => ?_, ?_⟩
  · obtain ⟨⟨_, h'⟩, _⟩ := p4 k hk1 hk2; exact h'
  · by_cases hlast : i' + 1 = ps.length
    · exact .inr hlast
    · left
      by_cases hc : ps[i'].1 < c1
      · exact absurd ⟨⟨by omega, hc⟩, by omega⟩ p5
      · omega

theorem fixEnd_spec {ps a} (h : RowsAt w1 w2 m a ps) (c1 : Int) (i : Nat) (hi : i ≤ ps.length) :
    ∃ i', i ≤ i' ∧ i' ≤ ps.length ∧
      fixEnd w1 w2 m c1 (a + i * blk w1 w2) (a + ps.length * blk w1 w2) = a + i' * blk w1 w2 ∧
      (∀ k (hk : k < ps.length), i ≤ k → k < i' → ps[k].1 = c1) ∧
      (∀ hl : i' < ps.length, ps[i'].1 ≠ c1) := by
  have hB := blk_pos w1 w2
  obtain ⟨i', p1, p2, p3, p4, p5⟩ := scan_loop (B := blk w1 w2) (a := a) (j := ps.length)
    (fun p => fixEnd w1 w2 m c1 p (a + ps.length * blk w1 w2))
    (fun i => (∃ hl : i < ps.length, ps[i].1 = c1))
    (fun i _ h => h.1)
    (fun i _ hq => by
      obtain ⟨hl, hq⟩ := hq
      rw [fixEnd, if_pos ⟨by rw [ptr_lt hB]; exact hl, by rw [(h i hl).1]; exact hq⟩, ptr_succ])
    (fun i hi' hq => by
      rw [fixEnd, if_neg]
      rintro ⟨x1, x2⟩
      rw [ptr_lt hB] at x1; rw [(h i x1).1] at x2
      exact hq ⟨x1, x2⟩) i (by omega)
  refine ⟨i', p1, p2, p3, fun k hk hk1 hk2 => ?_, fun hl hc => p5 ⟨hl, hc⟩⟩
  obtain ⟨_, h'⟩ := p4 k hk1 hk2; exact h'

theorem setupC1_range {ps a} (h : RowsAt w1 w2 m a ps) (hs : Sorted ps) (hne : ps ≠ []) (c1 : Int) :
    Range w1 w2 a ps (setupC1 w1 w2 m c1 a (a + ps.length * blk w1 w2))
      (ps.filter fun p => p.1 = c1) := by
  have hB := blk_pos w1 w2
  obtain ⟨i, hi, e1, hlow⟩ := searchStart_spec h hs c1 hne
  obtain ⟨i', hl, hii, e2, hlow2, hstop⟩ := lin1_spec h c1 i hi
  unfold setupC1
  rw [e1, e2]
  simp only [(h i' hl).1]
  by_cases hc : ps[i'].1 = c1
  · rw [if_neg (by simpa using hc), ptr_succ]
    obtain ⟨j, q1, q2, e3, hrun, hend⟩ := fixEnd_spec h c1 (i' + 1) (by omega)
    rw [e3]
    rw [filter_eq_slice _ ps i' j (by omega) q2]
    · exact ⟨i', j, by omega, q2, rfl, rfl⟩
    · intro k hk hki
      have : ps[k].1 < c1 := by
        by_cases hx : k < i
        · exact hlow k hk hx
        · exact hlow2 k hk (by omega) hki
      simp; omega
    · intro k hk h1 h2
      by_cases hx : k = i'
      · subst hx; simpa using hc
      · simpa using hrun k hk (by omega) h2
    · intro k hk hjk
      have h1 := hend (by omega)
      have h2 := hs.fst_le hk hjk
      have h3 : ps[i'].1 ≤ ps[j].1 := hs.fst_le (by omega) (by omega)
      simp; omega
  · rw [if_pos (by simpa using hc)]
    have : ps.filter (fun p => p.1 = c1) = [] := by
      rw [List.filter_eq_nil_iff]
      intro x hx
      obtain ⟨k, hk, rfl⟩ := List.getElem_of_mem hx
      simp only [decide_eq_true_eq]
      intro hkc
      by_cases hk1 : k < i'
      · have : ps[k].1 < c1 := by
          by_cases hx : k < i
          · exact hlow k hk hx
          · exact hlow2 k hk (by omega) hk1
        omega
      · rcases hstop with hst | hst
        · have := hs.fst_le hk (Nat.le_of_not_lt hk1); omega
        · have : k = i' := by omega
          subst this; exact hc hkc
    rw [this]; exact setup_same_range (by omega)

theorem lin2_spec {ps a} (h : RowsAt w1 w2 m a ps) (c1 c2 : Int) (i : Nat) (hi : i ≤ ps.length) :
    ∃ i', i ≤ i' ∧ i' ≤ ps.length ∧
      lin2 w1 w2 m c1 c2 (a + i * blk w1 w2) (a + ps.length * blk w1 w2) = a + i' * blk w1 w2 ∧
      (∀ k (hk : k < ps.length), i ≤ k → k < i' → Pair.lt ps[k] (c1, c2)) ∧
      (∀ hl : i' < ps.length, ¬ Pair.lt ps[i'] (c1, c2)) := by
  have hB := blk_pos w1 w2
  obtain ⟨i', p1, p2, p3, p4, p5⟩ := scan_loop (B := blk w1 w2) (a := a) (j := ps.length)
    (fun p => lin2 w1 w2 m c1 c2 p (a + ps.length * blk w1 w2))
    (fun i => (∃ hl : i < ps.length, Pair.lt ps[i] (c1, c2)))
    (fun i _ h => h.1)
    (fun i _ hq => by
      obtain ⟨hl, hq⟩ := hq
      rw [lin2, if_pos ⟨by rw [(h i hl).1, (h i hl).2]; exact hq, by rw [ptr_lt hB]; exact hl⟩, ptr_succ])
    (fun i hi' hq => by
      rw [lin2, if_neg]
      rintro ⟨x2, x1⟩
      rw [ptr_lt hB] at x1; rw [(h i x1).1, (h i x1).2] at x2
      exact hq ⟨x1, x2⟩) i (by omega)
  refine ⟨i', p1, p2, p3, fun k hk hk1 hk2 => ?_, fun hl hc => p5 ⟨hl, hc⟩⟩
  obtain ⟨_, h'⟩ := p4 k hk1 hk2; exact h'

theorem setupC12_range {ps a} (h : RowsAt w1 w2 m a ps) (hs : SortedS ps) (hne : ps ≠ [])
    (c1 c2 : Int) :
    Range w1 w2 a ps (setupC12 w1 w2 m c1 c2 a (a + ps.length * blk w1 w2))
      (ps.filter fun p => p = (c1, c2)) := by
  have hB := blk_pos w1 w2
  obtain ⟨i, hi, e1, hlow⟩ := searchStart_spec h hs.sorted c1 hne
  obtain ⟨i', hii, hl, e2, hlow2, hstop⟩ := lin2_spec h c1 c2 i (by omega)
  have hbelow : ∀ k (hk : k < ps.length), k < i' → Pair.lt ps[k] (c1, c2) := by
    intro k hk hki
    by_cases hx : k < i
    · exact .inl (hlow k hk hx)
    · exact hlow2 k hk (by omega) hki
  unfold setupC12
  rw [e1, e2]
  dsimp only
  by_cases hend : i' < ps.length
  · rw [(h i' hend).1, (h i' hend).2]
    by_cases hc : ps[i'].1 = c1 ∧ ps[i'].2 = c2
    · rw [if_pos ⟨hc.1, hc.2, (ptr_lt hB).2 hend⟩]
      rw [filter_eq_slice _ ps i' (i' + 1) (by omega) (by omega)]
      · refine ⟨i', i' + 1, by omega, by omega, ?_, rfl⟩
        rw [← ptr_succ]; simp [setup, blk, Nat.add_assoc]
      · intro k hk hki
        have := hbelow k hk hki
        simp only [decide_eq_false_iff_not]; intro he; rw [he] at this
        simp [Pair.lt] at this
      · intro k hk h1 h2
        have : k = i' := by omega
        subst this; simp only [decide_eq_true_eq]; exact Prod.ext hc.1 hc.2
      · intro k hk h1
        have := hs.get_lt hk (show i' < k by omega)
        simp only [decide_eq_false_iff_not]; intro he; rw [he] at this
        simp [Pair.lt] at this; omega
    · rw [if_neg (fun hx => hc ⟨hx.1, hx.2.1⟩)]
      have : ps.filter (fun p => p = (c1, c2)) = [] := by
        rw [List.filter_eq_nil_iff]
        intro x hx
        obtain ⟨k, hk, rfl⟩ := List.getElem_of_mem hx
        simp only [decide_eq_true_eq]
        intro hkc
        rcases Nat.lt_trichotomy k i' with hki | hki | hki
        · have := hbelow k hk hki; rw [hkc] at this; simp [Pair.lt] at this
        · subst hki; rw [hkc] at hc; exact hc ⟨rfl, rfl⟩
        · have h1 := hs.get_lt hk hki; rw [hkc] at h1; exact hstop hend h1
      rw [this]; exact setup_same_range (by omega)
  · rw [if_neg (fun hx => hend ((ptr_lt hB).1 hx.2.2))]
    have : ps.filter (fun p => p = (c1, c2)) = [] := by
      rw [List.filter_eq_nil_iff]
      intro x hx
      obtain ⟨k, hk, rfl⟩ := List.getElem_of_mem hx
      simp only [decide_eq_true_eq]
      intro hkc
      have := hbelow k hk (by omega); rw [hkc] at this; simp [Pair.lt] at this
    rw [this]; exact setup_same_range (by omega)

/-! ### Seeking -/

/-- State right after row `i` was returned, range ends at row `j`. -/
structure At (w1 w2 : Width) (a : Nat) (ps : List Pair) (j : Nat) (i : Nat) (s : St) : Prop where
  hi : i < j
  hj : j ≤ ps.length
  ign : s.ign = false
  cur : s.current = a + (i + 1) * blk w1 w2
  stop : s.stop = a + j * blk w1 w2
  v1 : s.v1 = (ps[i]'(by omega)).1
  v2 : s.v2 = (ps[i]'(by omega)).2

theorem At.next {ps a i j} {s : St} (h : RowsAt w1 w2 m a ps) (hi : i < j) (hj : j ≤ ps.length)
    (hign : s.ign = false) (hc : s.current = a + i * blk w1 w2) (he : s.stop = a + j * blk w1 w2) :
    At w1 w2 a ps j i (next w1 w2 m s) := by
  have hr := h i (by omega)
  refine ⟨hi, hj, ?_, ?_, ?_, ?_, ?_⟩
  · simp [Row.next, hign]
  · simp only [Row.next, hign, hc]; rw [← ptr_succ]; unfold blk; simp; omega
  · simp [Row.next, hign, he]
  · simp only [Row.next, hign, hc]; exact hr.1
  · simp only [Row.next, hign, hc]; exact hr.2

theorem adv1_spec {ps a j} (h : RowsAt w1 w2 m a ps) (c1 : Int) (i : Nat) (hi : i ≤ j)
    (hj : j ≤ ps.length) :
    ∃ i', i ≤ i' ∧ i' ≤ j ∧
      adv1 w1 w2 m c1 (a + i * blk w1 w2) (a + j * blk w1 w2) = a + i' * blk w1 w2 ∧
      (∀ k (hk : k < ps.length), i ≤ k → k < i' → ps[k].1 < c1) ∧
      (∀ (hl : i' < ps.length), i' < j → ¬ ps[i'].1 < c1) := by
  have hB := blk_pos w1 w2
  obtain ⟨i', p1, p2, p3, p4, p5⟩ := scan_loop (B := blk w1 w2) (a := a) (j := j)
    (fun p => adv1 w1 w2 m c1 p (a + j * blk w1 w2))
    (fun i => i < j ∧ (∃ hl : i < ps.length, ps[i].1 < c1))
    (fun i _ h => h.1)
    (fun i _ hq => by
      obtain ⟨hlt, hl, hq⟩ := hq
      rw [adv1, if_pos ⟨by rw [ptr_lt hB]; exact hlt, by rw [(h i hl).1]; exact hq⟩, ptr_succ])
    (fun i hi' hq => by
      rw [adv1, if_neg]
      rintro ⟨x1, x2⟩
      rw [ptr_lt hB] at x1; rw [(h i (by omega)).1] at x2
      exact hq ⟨x1, by omega, x2⟩) i (by omega)
  refine ⟨i', p1, p2, p3, fun k hk hk1 hk2 => ?_, fun hl hlt hc => p5 ⟨hlt, hl, hc⟩⟩
  obtain ⟨_, _, h'⟩ := p4 k hk1 hk2; exact h'

theorem adv2_spec {ps a j} (h : RowsAt w1 w2 m a ps) (c1 c2 : Int) (i : Nat) (hi : i ≤ j)
    (hj : j ≤ ps.length) :
    ∃ i', i ≤ i' ∧ i' ≤ j ∧
      adv2 w1 w2 m c1 c2 (a + i * blk w1 w2) (a + j * blk w1 w2) = a + i' * blk w1 w2 ∧
      (∀ k (hk : k < ps.length), i ≤ k → k < i' → ps[k].1 = c1 ∧ ps[k].2 < c2) ∧
      (∀ (hl : i' < ps.length), i' < j → ¬ (ps[i'].1 = c1 ∧ ps[i'].2 < c2)) := by
  have hB := blk_pos w1 w2
  obtain ⟨i', p1, p2, p3, p4, p5⟩ := scan_loop (B := blk w1 w2) (a := a) (j := j)
    (fun p => adv2 w1 w2 m c1 c2 p (a + j * blk w1 w2))
    (fun i => i < j ∧ (∃ hl : i < ps.length, ps[i].1 = c1 ∧ ps[i].2 < c2))
    (fun i _ h => h.1)
    (fun i _ hq => by
      obtain ⟨hlt, hl, hq⟩ := hq
      rw [adv2, if_pos ⟨by rw [ptr_lt hB]; exact hlt, by rw [(h i hl).1, (h i hl).2]; exact hq⟩, ptr_succ])
    (fun i hi' hq => by
      rw [adv2, if_neg]
      rintro ⟨x1, x2⟩
      rw [ptr_lt hB] at x1; rw [(h i (by omega)).1, (h i (by omega)).2] at x2
      exact hq ⟨x1, by omega, x2⟩) i (by omega)
  refine ⟨i', p1, p2, p3, fun k hk hk1 hk2 => ?_, fun hl hlt hc => p5 ⟨hlt, hl, hc⟩⟩
  obtain ⟨_, _, h'⟩ := p4 k hk1 hk2; exact h'

theorem drop_filter_eq {ps : List Pair} (hs : Sorted ps) {j : Nat} (hj : j ≤ ps.length) (i i' : Nat)
    (c : Pair) (hii : i ≤ i') (hij : i' ≤ j)
    (hlow : ∀ k (hk : k < ps.length), i ≤ k → k < i' → ¬ Pair.le c ps[k])
    (hup : ∀ (hl : i' < ps.length), i' < j → Pair.le c ps[i']) :
    ((ps.take j).drop i).filter (fun p => decide (Pair.le c p)) = (ps.take j).drop i' := by
  have e : (ps.take j).drop i' = ((ps.take j).drop i).drop (i' - i) := by
    rw [List.drop_drop]; congr 1; omega
  have hlen : ((ps.take j).drop i).length = j - i := by simp; omega
  rw [filter_eq_slice _ _ (i' - i) (j - i) (by omega) (by omega)]
  · rw [List.take_of_length_le (by omega), e]
  · intro k hk hki
    rw [hlen] at hk
    rw [List.getElem_drop, List.getElem_take]
    simpa using hlow (i + k) (by omega) (by omega) (by omega)
  · intro k hk hki _
    rw [hlen] at hk
    rw [List.getElem_drop, List.getElem_take]
    have h1 := hup (by omega) (by omega)
    simp only [decide_eq_true_eq]
    rcases Nat.lt_or_eq_of_le (show i' ≤ i + k by omega) with h2 | h2
    · have h3 := hs.get_le (show i + k < ps.length by omega) h2
      unfold Pair.le at *; omega
    · subst h2; exact h1
  · intro k hk h; omega

/-- What `moveto` does to a state positioned on row `i`. -/
theorem At.moveto {ps a i j} {s : St} (h : RowsAt w1 w2 m a ps) (hs : Sorted ps)
    (hnn : ∀ p ∈ ps, 0 ≤ p.2) (hat : At w1 w2 a ps j i s) (c1 c2 : Int) :
    ∃ i', i ≤ i' ∧ i' ≤ j ∧ (moveto w1 w2 m c1 c2 s).current = a + i' * blk w1 w2 ∧
      (moveto w1 w2 m c1 c2 s).stop = a + j * blk w1 w2 ∧ (moveto w1 w2 m c1 c2 s).ign = false ∧
      (∀ k (hk : k < ps.length), i ≤ k → k < i' → ¬ Pair.le (c1, c2) ps[k]) ∧
      (∀ (hl : i' < ps.length), i' < j → Pair.le (c1, c2) ps[i']) := by
  have hB := blk_pos w1 w2
  obtain ⟨hi, hj, hign, hcur, hstop, hv1, hv2⟩ := hat
  have hil : i < ps.length := by omega
  unfold Row.moveto
  simp only [hign, true_and, hv1, hv2]
  by_cases hahead : c1 > ps[i].1 ∨ c1 = ps[i].1 ∧ c2 > ps[i].2
  · simp only [hahead, decide_true, and_true, if_true]
    by_cases hn : hasNext s = false
    · rw [if_pos hn]
      have : ¬ i + 1 < j := by
        simp only [hasNext, hcur, hstop, ptr_lt hB, decide_eq_false_iff_not] at hn; exact hn
      refine ⟨i + 1, by omega, by omega, hcur, hstop, hign, ?_, fun hl hlt => by omega⟩
      intro k hk h1 h2
      have : k = i := by omega
      subst this; unfold Pair.le; simp only; omega
    · rw [if_neg hn]
      rw [hcur, hstop]
      obtain ⟨i1, p1, p2, p3, p4, p5⟩ := adv1_spec h c1 (i + 1) (by omega) hj
      rw [p3]
      have hbelow1 : ∀ k (hk : k < ps.length), i ≤ k → k < i1 → ¬ Pair.le (c1, c2) ps[k] := by
        intro k hk h1 h2
        rcases Nat.lt_or_eq_of_le h1 with h1 | h1
        · have := p4 k hk (by omega) h2; unfold Pair.le; simp only; omega
        · subst h1; unfold Pair.le; simp only; omega
      by_cases hcond : c2 > 0 ∧ a + i1 * blk w1 w2 ≠ a + j * blk w1 w2 ∧ r1 w1 m (a + i1 * blk w1 w2) = c1
      · rw [if_pos hcond]
        obtain ⟨i2, q1, q2, q3, q4, q5⟩ := adv2_spec h c1 c2 i1 p2 hj
        refine ⟨i2, by omega, q2, q3, rfl, rfl, ?_, ?_⟩
        · intro k hk h1 h2
          by_cases hk1 : k < i1
          · exact hbelow1 k hk h1 hk1
          · have := q4 k hk (by omega) h2; unfold Pair.le; simp only; omega
        · intro hl hlt
          have h5 := q5 hl hlt
          have hi1 : i1 < j := by omega
          have h6 := p5 (by omega) hi1
          have h7 := hs.fst_le hl q1
          unfold Pair.le; simp only; omega
      · rw [if_neg hcond]
        refine ⟨i1, by omega, p2, rfl, rfl, rfl, hbelow1, ?_⟩
        intro hl hlt
        have h6 := p5 hl hlt
        rw [ne_eq, ptr_eq hB, (h i1 hl).1] at hcond
        have h8 := hnn _ (List.getElem_mem hl)
        unfold Pair.le; simp only; omega
  · simp only [hahead, decide_false, Bool.false_eq_true, and_false, if_false]
    refine ⟨i, Nat.le_refl _, by omega, ?_, hstop, trivial, fun k hk h1 h2 => by omega, ?_⟩
    · simp only [hcur]; rw [← ptr_succ]; omega
    · intro hl _; unfold Pair.le; simp only; omega

theorem At.yields {ps a i j} {s : St} (h : RowsAt w1 w2 m a ps) (hat : At w1 w2 a ps j i s) :
    Yields (itr w1 w2 m) s ((ps.take j).drop (i + 1)) :=
  yields_slice h s (i + 1) j hat.hi hat.hj hat.ign hat.cur hat.stop

theorem reached_at {ps a i0 j} {s0 s : St} (h : RowsAt w1 w2 m a ps) (hs : Sorted ps)
    (hnn : ∀ p ∈ ps, 0 ≤ p.2) (hj : j ≤ ps.length) (hign : s0.ign = false)
    (hc : s0.current = a + i0 * blk w1 w2) (he : s0.stop = a + j * blk w1 w2)
    (hr : Reached (itr w1 w2 m) (moveto w1 w2 m) s0 s) :
    ∃ i, i0 ≤ i ∧ At w1 w2 a ps j i s := by
  have hB := blk_pos w1 w2
  induction hr with
  | first hn =>
    simp only [itr, hasNext, hc, he, decide_eq_true_eq, ptr_lt hB] at hn
    exact ⟨i0, Nat.le_refl _, At.next h hn hj hign hc he⟩
  | next _ hn ih =>
    obtain ⟨i, hi, hat⟩ := ih
    simp only [itr, hasNext, hat.cur, hat.stop, decide_eq_true_eq, ptr_lt hB] at hn
    exact ⟨i + 1, by omega, At.next h hn hj hat.ign hat.cur hat.stop⟩
  | seek c1 c2 _ hn ih =>
    obtain ⟨i, hi, hat⟩ := ih
    obtain ⟨i', p1, p2, p3, p4, p5, _, _⟩ := hat.moveto h hs hnn c1 c2
    simp only [itr, hasNext, p3, p4, decide_eq_true_eq, ptr_lt hB] at hn
    exact ⟨i', by omega, At.next h hn hj p5 p3 p4⟩

theorem seekOK_range {ps a i0 j} {s0 : St} (h : RowsAt w1 w2 m a ps) (hs : Sorted ps)
    (hnn : ∀ p ∈ ps, 0 ≤ p.2) (hj : j ≤ ps.length) (hign : s0.ign = false)
    (hc : s0.current = a + i0 * blk w1 w2) (he : s0.stop = a + j * blk w1 w2) :
    SeekOK (itr w1 w2 m) (moveto w1 w2 m) s0 ((ps.take j).drop i0) := by
  intro s hr
  obtain ⟨i, hi, hat⟩ := reached_at h hs hnn hj hign hc he hr
  have hij' := hat.hi
  have hval : (itr w1 w2 m).val s = ps[i]'(by omega) := Prod.ext hat.v1 hat.v2
  have hcons : (ps.take j).drop i = ps[i]'(by omega) :: (ps.take j).drop (i + 1) := by
    rw [List.drop_eq_getElem_cons (by simp; omega)]; simp
  refine ⟨((ps.take j).drop i0).take (i - i0), (ps.take j).drop (i + 1), ?_, hat.yields h, ?_⟩
  · rw [hval, ← hcons]
    have : (ps.take j).drop i = ((ps.take j).drop i0).drop (i - i0) := by
      rw [List.drop_drop]; congr 1; omega
    rw [this, List.take_append_drop]
  · intro c1 c2
    rw [hval, ← hcons]
    obtain ⟨i', p1, p2, p3, p4, p5, p6, p7⟩ := hat.moveto h hs hnn c1 c2
    rw [drop_filter_eq hs hj i i' (c1, c2) p1 p2 p6 p7]
    exact yields_slice h _ i' j p2 hj p5 p3 p4

theorem Range.seekOK {ps a s l} (h : RowsAt w1 w2 m a ps) (hs : Sorted ps)
    (hnn : ∀ p ∈ ps, 0 ≤ p.2) (hr : Range w1 w2 a ps s l) :
    SeekOK (itr w1 w2 m) (moveto w1 w2 m) s l := by
  obtain ⟨i, j, hij, hj, rfl, rfl⟩ := hr
  exact seekOK_range h hs hnn hj rfl rfl rfl

/-! ### mark / reset -/

theorem runOp_fixed (s : St) (o : IOp) :
    (runIOp (itr w1 w2 m) (moveto w1 w2 m) s o).stop = s.stop ∧
    (runIOp (itr w1 w2 m) (moveto w1 w2 m) s o).ign = s.ign ∧
    (runIOp (itr w1 w2 m) (moveto w1 w2 m) s o).mark = s.mark := by
  cases o with
  | next => simp only [runIOp, itr, Row.next]; split <;> simp
  | seek c1 c2 =>
    simp only [runIOp, Row.moveto]; split
    · simp
    · split
      · split <;> simp
      · simp

theorem runOps_fixed (ops : List IOp) (s : St) :
    (ops.foldl (runIOp (itr w1 w2 m) (moveto w1 w2 m)) s).stop = s.stop ∧
    (ops.foldl (runIOp (itr w1 w2 m) (moveto w1 w2 m)) s).ign = s.ign ∧
    (ops.foldl (runIOp (itr w1 w2 m) (moveto w1 w2 m)) s).mark = s.mark := by
  induction ops generalizing s with
  | nil => simp
  | cons o ops ih =>
    have h1 := ih (runIOp (itr w1 w2 m) (moveto w1 w2 m) s o)
    have h2 := runOp_fixed (w1 := w1) (w2 := w2) (m := m) s o
    simp only [List.foldl_cons]
    exact ⟨h1.1.trans h2.1, h1.2.1.trans h2.2.1, h1.2.2.trans h2.2.2⟩

theorem reset_yields {ps a i j} {s : St} (h : RowsAt w1 w2 m a ps) (hi : i ≤ j)
    (hj : j ≤ ps.length) (hign : s.ign = false) (hc : s.current = a + i * blk w1 w2)
    (he : s.stop = a + j * blk w1 w2) (ops : List IOp) :
    Yields (itr w1 w2 m) (reset (ops.foldl (runIOp (itr w1 w2 m) (moveto w1 w2 m)) (mark s)))
      ((ps.take j).drop i) := by
  have hf := runOps_fixed (w1 := w1) (w2 := w2) (m := m) ops (mark s)
  refine yields_slice h _ i j hi hj ?_ ?_ ?_
  · exact hf.2.1.trans hign
  · exact hf.2.2.trans hc
  · exact hf.1.trans he

theorem Range.resetOK {ps a s l} (h : RowsAt w1 w2 m a ps) (hs : Sorted ps)
    (hnn : ∀ p ∈ ps, 0 ≤ p.2) (hr : Range w1 w2 a ps s l) :
    ResetOK (itr w1 w2 m) (moveto w1 w2 m) mark reset s := by
  obtain ⟨i, j, hij, hj, rfl, rfl⟩ := hr
  rintro s (rfl | hre) rest hy ops
  · rw [hy.unique (yields_slice h _ i j hij hj rfl rfl rfl)]
    exact reset_yields h hij hj rfl rfl rfl ops
  · obtain ⟨i', _, hat⟩ := reached_at h hs hnn hj rfl rfl rfl hre
    rw [hy.unique (hat.yields h)]
    exact reset_yields h hat.hi hj hat.ign hat.cur hat.stop ops

/-! ### Distinct mode -/

theorem skipEq_spec {ps a j} (h : RowsAt w1 w2 m a ps) (v : Int) (i : Nat) (hi : i ≤ j)
    (hj : j ≤ ps.length) (cnt : Int) :
    ∃ i', i ≤ i' ∧ i' ≤ j ∧
      skipEq w1 w2 m v (a + i * blk w1 w2) (a + j * blk w1 w2) cnt
        = (a + i' * blk w1 w2, cnt + ((i' - i : Nat) : Int)) ∧
      (∀ k (hk : k < ps.length), i ≤ k → k < i' → ps[k].1 = v) ∧
      (∀ (hl : i' < ps.length), i' < j → ps[i'].1 ≠ v) := by
  have hB := blk_pos w1 w2
  generalize hd : j - i = d
  induction d generalizing i cnt with
  | zero =>
    refine ⟨i, Nat.le_refl _, hi, ?_, fun k _ h1 h2 => by omega, fun _ h2 => by omega⟩
    rw [skipEq, if_neg]
    · simp
    · rintro ⟨x, -⟩; rw [ptr_lt hB] at x; omega
  | succ d ih =>
    have hl : i < ps.length := by omega
    by_cases hv : ps[i].1 = v
    · obtain ⟨i', p1, p2, p3, p4, p5⟩ := ih (i + 1) (by omega) (cnt + 1) (by omega)
      refine ⟨i', by omega, p2, ?_, fun k hk h1 h2 => ?_, p5⟩
      · rw [skipEq, if_pos ⟨(ptr_lt hB).2 (by omega), by rw [(h i hl).1]; exact hv⟩, ptr_succ, p3]
        ext
        · rfl
        · simp only; omega
      · rcases Nat.lt_or_eq_of_le h1 with h1 | h1
        · exact p4 k hk h1 h2
        · subst h1; exact hv
    · refine ⟨i, Nat.le_refl _, hi, ?_, fun k _ h1 h2 => by omega, fun _ _ => hv⟩
      rw [skipEq, if_neg]
      · simp
      · rintro ⟨_, x⟩; rw [(h i hl).1] at x; exact hv x

theorem yieldsD {ps a} (h : RowsAt w1 w2 m a ps) (s : St) (i : Nat) (hi : i ≤ ps.length)
    (hign : s.ign = true) (hc : s.current = a + i * blk w1 w2)
    (he : s.stop = a + ps.length * blk w1 w2) : Yields (itrD w1 w2 m) s (runs (ps.drop i)) := by
  have hB := blk_pos w1 w2
  generalize hd : ps.length - i = d
  induction d using Nat.strongRecOn generalizing i s with
  | _ d ih =>
    by_cases hl : i < ps.length
    · obtain ⟨i', p1, p2, p3, p4, p5⟩ := skipEq_spec h (ps[i].1) (i + 1) (by omega) (Nat.le_refl _) 1
      have hsplit : ps.drop i = (ps.drop i).take (i' - i) ++ ps.drop i' := by
        have : ps.drop i' = (ps.drop i).drop (i' - i) := by rw [List.drop_drop]; congr 1; omega
        rw [this, List.take_append_drop]
      have hblock := runs_block (ps[i].1) ((ps.drop i).take (i' - i)) (ps.drop i')
        (by intro hx; have := congrArg List.length hx; simp at this; omega)
        (by
          intro p hp
          obtain ⟨k, hk, rfl⟩ := List.getElem_of_mem hp
          simp only [List.length_take, List.length_drop] at hk
          rw [List.getElem_take, List.getElem_drop]
          by_cases hk0 : k = 0
          · subst hk0; rfl
          · exact p4 (i + k) (by omega) (by omega) (by omega))
        (by
          intro p r hpr
          have hlt : i' < ps.length := by
            have := congrArg List.length hpr; simp at this; omega
          rw [List.drop_eq_getElem_cons hlt] at hpr
          injection hpr with hpr _
          subst hpr; exact p5 hlt hlt)
      rw [← hsplit] at hblock
      have hlen : ((ps.drop i).take (i' - i)).length = i' - i := by simp; omega
      rw [hblock, yields_cons, hlen]
      have hnext : next w1 w2 m s = { s with v1 := ps[i].1, current := a + i' * blk w1 w2,
                                             count := 1 + ((i' - (i + 1) : Nat) : Int) } := by
        simp only [next, hign, hc, (h i hl).1, if_true, ptr_succ, he, p3]
      refine ⟨?_, ?_, ?_⟩
      · simp only [itrD, hasNext, hc, he, decide_eq_true_eq, ptr_lt hB]; exact hl
      · simp only [itrD, hnext]; ext
        · rfl
        · simp only; omega
      · simp only [itrD] at *
        rw [hnext]
        exact ih (ps.length - i') (by omega) _ i' p2 hign rfl he rfl
    · have : ps.drop i = [] := by rw [List.drop_eq_nil_iff]; omega
      rw [this]; simp only [runs]
      rw [yields_nil]
      simp only [itrD, hasNext, hc, he, decide_eq_false_iff_not, ptr_lt hB]; omega

theorem runs_cons_length (p : Pair) (l : List Pair) : ((runs (p :: l)).length : Int) =
    (runs l).length + (match l with | [] => 1 | q :: _ => if q.1 = p.1 then 0 else 1) := by
  cases l with
  | nil => simp [runs]
  | cons q l =>
    obtain ⟨c, r, e⟩ := @runs_head q l
    rw [runs, e]
    by_cases hq : q.1 = p.1 <;> simp [hq]

theorem countDistinct_spec {ps a} (h : RowsAt w1 w2 m a ps) (i : Nat) (hi : i ≤ ps.length)
    (prev v1 cnt : Int) :
    (countDistinct w1 w2 m prev (a + i * blk w1 w2) (a + ps.length * blk w1 w2) v1 cnt).1 =
      cnt + (runs (ps.drop i)).length -
        (match ps.drop i with | [] => 0 | q :: _ => if q.1 = prev then 1 else 0) := by
  have hB := blk_pos w1 w2
  generalize hd : ps.length - i = d
  induction d generalizing i prev v1 cnt with
  | zero =>
    have hnil : ps.drop i = [] := by rw [List.drop_eq_nil_iff]; omega
    rw [countDistinct, if_neg (by rw [ptr_lt hB]; omega), hnil]; simp [runs]
  | succ d ih =>
    have hl : i < ps.length := by omega
    rw [countDistinct, if_pos ((ptr_lt hB).2 hl)]
    simp only [(h i hl).1, ptr_succ]
    rw [ih (i + 1) (by omega) _ _ _ (by omega), List.drop_eq_getElem_cons hl, runs_cons_length]
    simp only
    cases hdrop : ps.drop (i + 1) with
    | nil => simp only [runs, List.length_nil]; split <;> (try split) <;> (try simp_all) <;> (try omega)
    | cons q r => simp only; split <;> (try split) <;> (try split) <;> (try simp_all) <;> (try omega)

end Row
end Trident
