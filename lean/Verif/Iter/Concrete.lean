import Verif.Iter.ObjectProofs
import Verif.Iter.ArrayProofs
import Verif.Tables.StratProofs
/-! Helper lemmas about concrete iterator objects (no property statements here). -/
namespace Trident

/-! ## A sorting function meeting the specification of `std::sort` -/

/-- Merge sort by value, in the order of `live`. -/
def msort : Sorter := fun cs l => l.mergeSort fun a b => decide (Pair.le ((famItr cs).val a) ((famItr cs).val b))

theorem msort_spec (cs : List Obj) : Composite.SortSpec (famItr cs) (msort cs) where
  perm l := List.mergeSort_perm _ _
  sorted l := by
    have := List.pairwise_mergeSort (le := fun a b => decide (Pair.le ((famItr cs).val a) ((famItr cs).val b)))
      (by intro a b c; simp only [decide_eq_true_eq]; unfold Pair.le; omega)
      (by intro a b; rw [Bool.or_eq_true, decide_eq_true_eq, decide_eq_true_eq]; unfold Pair.le; omega) l
    exact this.imp fun h => by simpa using h

theorem msort_specD (cs : List Obj) : Composite.SortSpecD (famItr cs) (msort cs) where
  perm l := List.mergeSort_perm _ _
  sorted l := ((msort_spec cs).sorted l).imp fun h => by unfold Pair.le at h; omega

/-! ## Arrays -/

theorem Arr.yields_all {l : List (Nat × Nat)} (hs : Sorted (toI l)) (hne : l ≠ []) :
    (Obj.array l (-1) (-1)).Returns (toI l) := (Arr.drv hs (-1) (-1)).yields (Arr.good_all hs hne (-1))

theorem Arr.ready {l : List (Nat × Nat)} : (Obj.array l (-1) (-1)).Ready := rfl

theorem Arr.steady {l : List (Nat × Nat)} {c1 c2 : Int} : (Obj.array l c1 c2).Steady := by
  intro s
  change (Arr.itr l).val (Arr.hasNext l s).2 = _
  unfold Arr.hasNext
  split <;> rfl

theorem Arr.idem (l : List (Nat × Nat)) : Idem (Arr.itr l) := by
  intro s
  change Arr.hasNext l (Arr.hasNext l s).2 = Arr.hasNext l s
  have h : (Arr.hasNext l s).2.hnc = true ∧ (Arr.hasNext l s).2.n = (Arr.hasNext l s).1 := by
    unfold Arr.hasNext
    cases hc : s.hnc <;> simp [hc]
  have e : ∀ t : Arr.St, t.hnc = true → Arr.hasNext l t = (t.n, t) := by
    intro t ht; unfold Arr.hasNext; rw [if_pos ht]
  rw [e _ h.1, h.2]

theorem Arr.reached_ign {l : List (Nat × Nat)} {s0 s : Arr.St} (h0 : s0.ign = false)
    (h : Reached (Arr.itr l) (Arr.moveto l) s0 s) : s.ign = false := by
  have hn : ∀ s : Arr.St, ((Arr.itr l).next ((Arr.itr l).hasNext s).2).ign = s.ign := by
    intro s
    change (Arr.next l (Arr.hasNext l s).2).ign = s.ign
    unfold Arr.next Arr.hasNext
    split <;> rfl
  have hm : ∀ (c1 c2 : Int) (s : Arr.St), (Arr.moveto l c1 c2 s).ign = s.ign := by
    intro c1 c2 s; unfold Arr.moveto; split <;> rfl
  induction h with
  | first _ => rw [hn]; exact h0
  | next _ _ ih => rw [hn]; exact ih
  | seek c1 c2 _ _ ih => rw [hn, hm]; exact ih

theorem Arr.failBelow {l : List (Nat × Nat)} {c1 c2 : Int} :
    FailBelow (Obj.array l c1 c2).I (Obj.array l c1 c2).mv (Obj.array l c1 c2).s := by
  intro s hr d1 d2 hn
  have hi : (Arr.init l c1 c2).ign = false := by
    unfold Arr.init; simp only; (repeat' split) <;> rfl
  have hign := Arr.reached_ign hi hr
  change (Arr.hasNext l (Arr.moveto l d1 d2 s)).1 = false at hn
  rw [Arr.steady (l := l) (c1 := c1) (c2 := c2)]
  change Pair.lt ((Arr.moveto l d1 d2 s).v1, (Arr.moveto l d1 d2 s).v2) (d1, d2)
  unfold Arr.moveto at hn ⊢
  by_cases hc : s.v1 ≥ d1 ∧ (s.ign = true ∨ s.v1 > d1 ∨ s.v2 ≥ d2)
  · rw [if_pos hc] at hn
    simp [Arr.hasNext] at hn
  · rw [if_neg hc]
    rw [hign] at hc
    simp only [Bool.false_eq_true, false_or] at hc
    unfold Pair.lt
    simp only
    omega

/-! ## Draining -/

theorem drain_eq {σ α : Type} {I : Itr σ α} {s l} (h : Yields I s l) {fuel} (hf : l.length < fuel) :
    drain I fuel s = l := by
  induction h generalizing fuel with
  | done h => cases fuel with
    | zero => rfl
    | succ n => simp [drain, h]
  | step h1 _ ih => cases fuel with
    | zero => simp at hf
    | succ n =>
      simp only [List.length_cons] at hf
      simp only [drain, h1, if_true]
      rw [ih (by omega)]

/-! ## Tables -/

theorem Tab.hasNext_snd (m : Mem) (t : Strat.Tab) : ((Strat.Tab.itr m).hasNext t).2 = t := by
  cases t <;> rfl

theorem Tab.ready {m : Mem} {t : Strat.Tab} (h : (Obj.tab m t).hasNext = true) : (Obj.tab m t).Ready :=
  Prod.ext h (Tab.hasNext_snd m t)

theorem Tab.steady {m : Mem} {t : Strat.Tab} : (Obj.tab m t).Steady := fun s =>
  congrArg (Strat.Tab.itr m).val (Tab.hasNext_snd m s)

theorem Tab.idem (m : Mem) : Idem (Strat.Tab.itr m) := fun s => by rw [Tab.hasNext_snd]

end Trident
