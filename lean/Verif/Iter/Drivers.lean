import Verif.Itr
/-! Proof devices built from what is known of an iterator (no property statements here). -/
namespace Trident

/-- Calling `hasNext` twice is the same as calling it once. -/
def Idem {σ α : Type} (I : Itr σ α) : Prop := ∀ s, I.hasNext (I.hasNext s).2 = I.hasNext s

theorem Yields.hasNext {σ α : Type} {I : Itr σ α} (hi : Idem I) {s l} (h : Yields I s l) :
    Yields I (I.hasNext s).2 l := by
  cases h with
  | done h => exact .done (by rw [hi]; exact h)
  | step h1 h2 =>
    have := Yields.step (I := I) (s := (I.hasNext s).2) (l := _) (by rw [hi]; exact h1) (by rw [hi]; exact h2)
    rw [hi] at this
    exact this

/-- The device for plain scans. -/
def yieldsDriver {σ α : Type} (I : Itr σ α) (mv : Int → Int → σ → σ) (keep : Int → Int → α → Bool) :
    DriverK I mv (fun _ _ _ => False) keep where
  Good := Yields I
  At s e rest := I.val s = e ∧ Yields I s rest
  more := by
    intro s out h hn
    cases h with
    | done h => rw [h] at hn; simp at hn
    | step h1 h2 => exact ⟨_, _, rfl, rfl, h2⟩
  done := by
    intro s out h hn
    cases h with
    | done h => rfl
    | step h1 h2 => rw [h1] at hn; simp at hn
  val h := h.1
  good h := h.2
  suffix h _ _ x := x.elim
  seek h _ _ x := x.elim

theorem SeekOK.yields {σ : Type} {I : Itr σ Pair} {mv s0 ps} (h : SeekOK I mv s0 ps) {s}
    (hr : Reached I mv s0 s) : ∃ l, Yields I s l := by
  obtain ⟨_, rest, _, h2, _⟩ := h s hr; exact ⟨rest, h2⟩

/-- The device for an iterator on which seeking is correct. -/
def seekDriver {σ : Type} (I : Itr σ Pair) (mv : Int → Int → σ → σ) (Q : σ → Prop) : Driver I mv where
  Good s out := Yields I s out ∧ ∃ s0 ps, Q s0 ∧ Sorted ps ∧ SeekOK I mv s0 ps ∧
    (s = s0 ∨ Reached I mv s0 s ∨ ∃ s' c1 c2, Reached I mv s0 s' ∧ s = mv c1 c2 s')
  At s e rest := I.val s = e ∧ Yields I s rest ∧ ∃ s0 ps, Q s0 ∧ Sorted ps ∧ SeekOK I mv s0 ps ∧
    Reached I mv s0 s
  more := by
    rintro s out ⟨hy, s0, ps, hq, h1, h2, h3⟩ hn
    cases hy with
    | done h => rw [h] at hn; simp at hn
    | step h4 h5 =>
      refine ⟨_, _, rfl, rfl, h5, s0, ps, hq, h1, h2, ?_⟩
      rcases h3 with rfl | h3 | ⟨s', c1, c2, h3, rfl⟩
      · exact .first hn
      · exact .next h3 hn
      · exact .seek c1 c2 h3 hn
  done := by
    rintro s out ⟨hy, -⟩ hn
    cases hy with
    | done h => rfl
    | step h1 h2 => rw [h1] at hn; simp at hn
  val h := h.1
  good := by
    rintro s e rest ⟨-, h1, s0, ps, hq, h2, h3, h4⟩
    exact ⟨h1, s0, ps, hq, h2, h3, .inr (.inl h4)⟩
  suffix := by
    rintro s e rest ⟨rfl, h1, s0, ps, hq, h2, h3, h4⟩ c1 c2 -
    obtain ⟨pre, rest', h5, h6, -⟩ := h3 s h4
    rw [h6.unique h1] at h5
    apply Sorted.filter_ge_suffix
    rw [h5] at h2
    exact (List.pairwise_append.1 h2).2.1
  seek := by
    rintro s e rest ⟨rfl, h1, s0, ps, hq, h2, h3, h4⟩ c1 c2 -
    obtain ⟨pre, rest', h5, h6, h7⟩ := h3 s h4
    rw [h6.unique h1] at h7
    exact ⟨h7 c1 c2, s0, ps, hq, h2, h3, .inr (.inr ⟨s, c1, c2, h4, rfl⟩)⟩

/-- The device for an iterator in distinct mode on which seeking is correct. -/
def seekDriverD {σ : Type} (I : Itr σ Pair) (mv : Int → Int → σ → σ) (Q : σ → Prop) : DriverD I mv where
  Good s out := Yields I s out ∧ ∃ s0 ps, Q s0 ∧ ps.Pairwise (fun a b => a.1 < b.1) ∧ SeekOKD I mv s0 ps ∧
    (s = s0 ∨ Reached I mv s0 s ∨ ∃ s' c1 c2, Reached I mv s0 s' ∧ s = mv c1 c2 s')
  At s e rest := I.val s = e ∧ Yields I s rest ∧ ∃ s0 ps, Q s0 ∧ ps.Pairwise (fun a b => a.1 < b.1) ∧
    SeekOKD I mv s0 ps ∧ Reached I mv s0 s
  more := by
    rintro s out ⟨hy, s0, ps, hq, h1, h2, h3⟩ hn
    cases hy with
    | done h => rw [h] at hn; simp at hn
    | step h4 h5 =>
      refine ⟨_, _, rfl, rfl, h5, s0, ps, hq, h1, h2, ?_⟩
      rcases h3 with rfl | h3 | ⟨s', c1, c2, h3, rfl⟩
      · exact .first hn
      · exact .next h3 hn
      · exact .seek c1 c2 h3 hn
  done := by
    rintro s out ⟨hy, -⟩ hn
    cases hy with
    | done h => rfl
    | step h1 h2 => rw [h1] at hn; simp at hn
  val h := h.1
  good := by
    rintro s e rest ⟨-, h1, s0, ps, hq, h2, h3, h4⟩
    exact ⟨h1, s0, ps, hq, h2, h3, .inr (.inl h4)⟩
  suffix := by
    rintro s e rest ⟨rfl, h1, s0, ps, hq, h2, h3, h4⟩ c1 c2 -
    obtain ⟨pre, rest', h5, h6, -⟩ := h3 s h4
    rw [h6.unique h1] at h5
    apply filter_ge_suffixD
    rw [h5] at h2
    exact (List.pairwise_append.1 h2).2.1
  seek := by
    rintro s e rest ⟨rfl, h1, s0, ps, hq, h2, h3, h4⟩ c1 c2 -
    obtain ⟨pre, rest', h5, h6, h7⟩ := h3 s h4
    rw [h6.unique h1] at h7
    exact ⟨h7 c1 c2, s0, ps, hq, h2, h3, .inr (.inr ⟨s, c1, c2, h4, rfl⟩)⟩

theorem Reached.of_hasNext {σ : Type} {I : Itr σ Pair} {mv s0 s} (hi : Idem I)
    (h : Reached I mv (I.hasNext s0).2 s) : Reached I mv s0 s := by
  induction h with
  | first h => rw [hi] at h ⊢; exact .first h
  | next _ h ih => exact .next ih h
  | seek c1 c2 _ h ih => exact .seek c1 c2 ih h

theorem SeekOK.hasNext {σ : Type} {I : Itr σ Pair} {mv s0 ps} (hi : Idem I) (h : SeekOK I mv s0 ps) :
    SeekOK I mv (I.hasNext s0).2 ps := fun s hr => h s (hr.of_hasNext hi)

end Trident
