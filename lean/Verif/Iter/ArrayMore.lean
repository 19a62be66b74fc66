import Verif.Iter.Concrete
/-! Further helper lemmas for `ArrayItr`: reset, distinct mode, the reversed table. -/
namespace Trident.Arr

variable {l : List (Nat × Nat)}

/-- The part of the state the client operations leave alone. -/
def fixedPart (s : St) : Int × Int × Bool × Nat := (s.c1, s.c2, s.ign, s.markPos)

theorem step_fixed (s : St) : fixedPart ((itr l).next ((itr l).hasNext s).2) = fixedPart s := by
  change fixedPart (next l (hasNext l s).2) = fixedPart s
  unfold next hasNext
  split <;> rfl

theorem moveto_fixed (c1 c2 : Int) (s : St) : fixedPart (moveto l c1 c2 s) = fixedPart s := by
  unfold moveto; split <;> rfl

theorem run_fixed (ops : List IOp) (s : St) : fixedPart (ops.foldl (runIOp (itr l) (moveto l)) s) = fixedPart s := by
  induction ops generalizing s with
  | nil => rfl
  | cons op ops ih =>
    rw [List.foldl_cons, ih]
    cases op with
    | next => exact step_fixed s
    | seek c1 c2 => exact moveto_fixed c1 c2 s

theorem good_of_reset (hs : Sorted (toI l)) {c1 c2 : Int} {s t : St} {out} (h : (drv hs c1 c2).Good s out)
    (hf : fixedPart t = (s.c1, s.c2, s.ign, s.pos)) : (drv hs c1 c2).Good (reset t) out := by
  obtain ⟨h1, h2, h3, h4⟩ := h
  have e1 := congrArg (·.1) hf
  have e2 := congrArg (·.2.1) hf
  have e3 := congrArg (·.2.2.1) hf
  have e4 := congrArg (·.2.2.2) hf
  simp only [fixedPart] at e1 e2 e3 e4
  refine ⟨⟨by simp [reset, e1, h1.c1], by simp [reset, e2, h1.c2], by simp [reset, e3, h1.ign], by simp [reset, e4, h1.le]⟩,
    by simp [reset, e4]; exact h2, by simp [reset], by simp [reset, e4]; exact h4⟩

theorem resetOK (hs : Sorted (toI l)) {c1 c2 : Int} {s0 : St} {out} (h : (drv hs c1 c2).Good s0 out) :
    ResetOK (itr l) (moveto l) mark reset s0 := by
  intro s hr rest hy ops
  have hg : ∃ out', (drv hs c1 c2).Good s out' := by
    rcases hr with rfl | hr
    · exact ⟨out, h⟩
    · obtain ⟨pre, e, rest', h1, -⟩ := (drv hs c1 c2).reached h hr.on
      exact ⟨rest', (drv hs c1 c2).good h1⟩
  obtain ⟨out', hg⟩ := hg
  rw [hy.unique ((drv hs c1 c2).yields hg)]
  exact (drv hs c1 c2).yields (good_of_reset hs hg (by rw [run_fixed]; rfl))

/-! ## Distinct mode -/

theorem countLoop_spec (pos c : Nat) (hp : pos ≤ l.length) (h0 : 0 < pos) :
    pos ≤ (countLoop l pos c).1 ∧ (countLoop l pos c).1 ≤ l.length ∧
    (countLoop l pos c).2 = c + ((countLoop l pos c).1 - pos) ∧
    (∀ i, pos ≤ i → i < (countLoop l pos c).1 → (get l i).1 = (get l (pos - 1)).1) ∧
    ((countLoop l pos c).1 < l.length → (get l (countLoop l pos c).1).1 ≠ (get l (pos - 1)).1) := by
  generalize hn : l.length - pos = n
  induction n generalizing pos c with
  | zero =>
    unfold countLoop
    rw [if_neg (by omega)]
    exact ⟨by simp, by simpa using hp, by simp, fun i h1 h2 => by simp at h2; omega, fun h => by simp at h; omega⟩
  | succ n ih =>
    unfold countLoop
    rw [if_pos (by omega)]
    by_cases hc : (get l pos).1 = (get l (pos - 1)).1
    · rw [if_pos hc]
      obtain ⟨h1, h2, h3, h4, h5⟩ := ih (pos + 1) (c + 1) (by omega) (by omega) (by omega)
      simp only [Nat.add_sub_cancel] at h4 h5
      rw [hc] at h4 h5
      refine ⟨by omega, h2, by omega, fun i h6 h7 => ?_, h5⟩
      by_cases hi : i = pos
      · subst hi; exact hc
      · exact h4 i (by omega) h7
    · rw [if_neg hc]
      exact ⟨by simp, by simpa using hp, by simp, fun i h1 h2 => by simp at h2; omega, fun _ => hc⟩

theorem rem_split {a b : Nat} (hab : a ≤ b) : rem l a = (rem l a).take (b - a) ++ rem l b := by
  unfold rem
  have : (toI l).drop b = ((toI l).drop a).drop (b - a) := by rw [List.drop_drop]; congr 1; omega
  rw [this, List.take_append_drop]

/-- State in distinct mode in front of the pairs from `pos` on, at the start of a group. -/
structure GoodD (l : List (Nat × Nat)) (s : St) : Prop where
  ign : s.ign = true
  c1 : s.c1 = -1
  le : s.pos ≤ l.length
  chk : s.hnc = true → s.n = decide (s.pos < l.length)
  fresh : s.hnc = false → s.pos < l.length → ((get l s.pos).1 : Int) ≠ s.v1

theorem skipEq_stay {v : Int} {pos : Nat} (h : pos < l.length → ((get l pos).1 : Int) ≠ v) : skipEq l v pos = pos := by
  unfold skipEq
  by_cases hp : pos < l.length
  · rw [if_pos hp, if_pos (h hp)]
  · rw [if_neg hp]

theorem GoodD.hasNext {s : St} (h : GoodD l s) :
    Arr.hasNext l s = (decide (s.pos < l.length), { s with hnc := true, n := decide (s.pos < l.length) }) := by
  unfold Arr.hasNext
  cases hc : s.hnc with
  | true =>
    have := h.chk hc
    cases s; simp_all
  | false =>
    simp only [Bool.false_eq_true, if_false, h.ign, if_true, h.c1, skipEq_stay (h.fresh hc)]

theorem GoodD.yields {s : St} (h : GoodD l s) : Yields (itrD l) s (runs (rem l s.pos)) := by
  generalize hn : l.length - s.pos = n
  induction n using Nat.strongRecOn generalizing s with
  | _ n ih =>
    by_cases hp : s.pos < l.length
    · -- one group
      obtain ⟨h1, h2, h3, h4, h5⟩ := countLoop_spec (l := l) (s.pos + 1) 1 (by omega) (by omega)
      simp only [Nat.add_sub_cancel] at h4 h5
      generalize hr : countLoop l (s.pos + 1) 1 = r at *
      have hstep : (itrD l).next ((itrD l).hasNext s).2 =
          { s with v1 := (get l s.pos).1, v2 := (get l s.pos).2, pos := r.1, hnc := false, count := r.2,
                   n := decide (s.pos < l.length) } := by
        change getCount l (next l (Arr.hasNext l s).2) = _
        rw [h.hasNext]
        simp only [getCount, next, if_true, hr]
      have hgd : GoodD l ((itrD l).next ((itrD l).hasNext s).2) := by
        rw [hstep]
        refine ⟨h.ign, h.c1, h2, fun h => by simp at h, fun _ hlt => ?_⟩
        have := h5 hlt
        simp only
        omega
      have hrun : runs (rem l s.pos) = (((get l s.pos).1 : Int), (r.2 : Int)) :: runs (rem l r.1) := by
        rw [rem_split (a := s.pos) (b := r.1) (by omega)]
        have hlen : ((rem l s.pos).take (r.1 - s.pos)).length = r.2 := by
          rw [List.length_take]
          unfold rem
          rw [List.length_drop, toI_length]
          omega
        rw [runs_block ((get l s.pos).1 : Int)]
        · rw [hlen]
        · intro e
          rw [e] at hlen
          simp at hlen
          omega
        · intro p hp'
          obtain ⟨i, hi, rfl⟩ := List.getElem_of_mem hp'
          rw [hlen] at hi
          rw [List.getElem_take]
          have hi' : s.pos + i < l.length := by omega
          have : (rem l s.pos)[i]'(by unfold rem; rw [List.length_drop, toI_length]; omega) = pr l (s.pos + i) := by
            unfold rem
            rw [List.getElem_drop, pr_eq hi']
          rw [this]
          unfold pr
          simp only
          by_cases h0 : i = 0
          · subst h0; rfl
          · rw [h4 (s.pos + i) (by omega) (by omega)]
        · intro p rest' e hc
          have hlt : r.1 < l.length := by
            apply Classical.byContradiction
            intro hge
            rw [rem_nil (by omega)] at e; simp at e
          rw [rem_cons hlt, List.cons.injEq] at e
          rw [← e.1] at hc
          have := h5 hlt
          unfold pr at hc
          simp only at hc
          omega
      rw [hrun, yields_cons]
      refine ⟨?_, ?_, ?_⟩
      · change (Arr.hasNext l s).1 = true
        rw [h.hasNext]; simp [hp]
      · rw [hstep]; rfl
      · have := ih (l.length - r.1) (by omega) hgd (by rw [hstep])
        rw [hstep] at this ⊢
        exact this
    · rw [rem_nil (by omega)]
      simp only [runs]
      rw [yields_nil]
      change (Arr.hasNext l s).1 = false
      rw [h.hasNext]; simp [hp]

theorem goodD_init (hne : l ≠ []) : GoodD l (ignoreSecondColumn (init l (-1) (-1))) where
  ign := rfl
  c1 := rfl
  le := by simp [ignoreSecondColumn, init]
  chk _ := by
    have : 0 < l.length := List.length_pos_iff.2 hne
    simp [ignoreSecondColumn, init, this]
  fresh h := by simp [ignoreSecondColumn, init] at h

theorem cardLoop_eq (l : List (Nat × Nat)) (v : Int) (c : Nat)  (hs : Sorted (toI l))
    (hv : ∀ p ∈ toI l, v ≤ p.1) :
    cardLoop l v c = c + ((runs (toI l)).filter fun q => q.1 != v).length := by
  induction l generalizing v c with
  | nil => simp [cardLoop, toI, runs]
  | cons p l ih =>
    have hs' := (List.pairwise_cons.1 (show ((_ : Pair) :: toI l).Pairwise _ from hs))
    have hmem : ∀ q ∈ toI l, (p.1 : Int) ≤ q.1 := fun q hq => by
      have := hs'.1 q hq; simp only [Pair.le] at this; omega
    have hd := (isDistinct_runs (ps := toI l) (hs'.2.imp fun h => by unfold Pair.le at h; omega))
    have hpv : v ≤ (p.1 : Int) := hv _ (List.mem_cons_self)
    have hrun : runs (toI (p :: l)) = match runs (toI l) with
      | (w, c) :: r => if w = (p.1 : Int) then (w, c + 1) :: r else ((p.1 : Int), 1) :: (w, c) :: r
      | [] => [((p.1 : Int), 1)] := rfl
    have hge : ∀ q ∈ runs (toI l), (p.1 : Int) ≤ q.1 := by
      intro q hq
      obtain ⟨x, hx, e⟩ := List.mem_map.1 ((hd.2.1 q.1).1 (List.mem_map.2 ⟨q, hq, rfl⟩))
      rw [← e]; exact hmem x hx
    unfold cardLoop
    by_cases hc : (p.1 : Int) ≠ v
    · rw [if_pos hc, ih _ _ hs'.2 hmem, hrun]
      cases hr : runs (toI l) with
      | nil => simp [hc]
      | cons w r =>
        obtain ⟨w, cw⟩ := w
        have hsr := hd.1
        rw [hr, List.map_cons, List.pairwise_cons] at hsr
        have hne : ∀ q ∈ r, (q.1 != (p.1 : Int)) = true := by
          intro q hq
          have h1 := hsr.1 q.1 (List.mem_map.2 ⟨q, hq, rfl⟩)
          have h2 := hge (w, cw) (by rw [hr]; simp)
          simp only at h1 h2
          simp; omega
        have hnev : ∀ q ∈ r, (q.1 != v) = true := by
          intro q hq
          have h1 := hsr.1 q.1 (List.mem_map.2 ⟨q, hq, rfl⟩)
          have h2 := hge (w, cw) (by rw [hr]; simp)
          simp only at h1 h2
          simp; omega
        have f1 := List.filter_eq_self.2 hne
        have f2 := List.filter_eq_self.2 hnev
        have hwp := hge (w, cw) (by rw [hr]; simp)
        simp only at hwp
        by_cases hw : w = (p.1 : Int)
        · simp only [if_pos hw]
          rw [List.filter_cons_of_neg (by simp [hw]), List.filter_cons_of_pos (by simp; omega), f1, f2]
          simp; omega
        · simp only [if_neg hw]
          rw [List.filter_cons_of_pos (by simpa using hw), List.filter_cons_of_pos (by simp; omega),
            List.filter_cons_of_pos (by simp; omega), f1, f2]
          simp; omega
    · rw [if_neg hc]
      have hc' : (p.1 : Int) = v := by omega
      rw [ih _ _ hs'.2 (fun q hq => by rw [← hc']; exact hmem q hq), hrun]
      cases hr : runs (toI l) with
      | nil => simp [hc']
      | cons w r =>
        obtain ⟨w, cw⟩ := w
        by_cases hw : w = (p.1 : Int)
        · simp only [if_pos hw]
          rw [List.filter_cons_of_neg (by simp; omega), List.filter_cons_of_neg (by simp; omega)]
        · simp only [if_neg hw]
          rw [List.filter_cons_of_neg (l := (w, cw) :: r) (by simp; omega)]

end Trident.Arr
