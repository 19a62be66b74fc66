import Verif.Iter.ObjectProofs
/-! Lemmas about a seek in the merge right after `hasNext` (no property statements here). -/
namespace Trident.Composite
variable {σ : Type} {C : Itr σ Pair} {cmv : Int → Int → σ → σ} {X : Prop}

theorem seek_probed {D : DriverK C cmv (fun _ _ _ => X) fun c1 c2 p => decide (Pair.le (c1, c2) p)}
    (x : X) (hpure : ∀ c, (C.hasNext c).2 = c) {s : St σ} {e rest}
    (hfail : ∀ {c e rest}, D.At c e rest → ∀ c1 c2, (C.hasNext (cmv c1 c2 c)).1 = false →
      Pair.lt (C.val (C.hasNext (cmv c1 c2 c)).2) (c1, c2))
    (h : AtC D s e rest) (hn : (hasNext C s).1 = true) (c1 c2 : Int) (hge : Pair.le e (c1, c2)) :
    FreshC D (moveto C cmv c1 c2 (hasNext C s).2) ((e :: rest).filter fun p => decide (Pair.le (c1, c2) p)) := by
  have hseek := seek_at x hfail h c1 c2
  obtain ⟨c, r, rc, ms, hl, ha, hsc, hr, hperm⟩ := hasNext_at h
  have hv := h.v
  cases hc : (C.hasNext c).1 with
  | true =>
    have e1 : (hasNext C s).2 = { s with live := c :: r, decreased := false, hn := true, hnc := true } := by
      simp [hasNext, h.hnc, hl, hc, hpure]
    have e2 : moveto C cmv c1 c2 (hasNext C s).2 = moveto C cmv c1 c2 s := by
      rw [e1]
      unfold moveto
      simp only [hl, hv]
      simp only [List.isEmpty_cons, Bool.not_false, Bool.and_true, decide_eq_true_eq]
      by_cases hq : e = (c1, c2)
      · have hd := reconsider_nop (C := C) (e := (c1, c2)) (live := c :: r) (dead := s.dead)
          (fun d hd => by rw [← hq]; exact h.dead x d hd e (by simp))
        simp [hq, hd]
      · simp [hq]
    rw [e2]; exact hseek
  | false =>
    have hrc := D.done (D.good ha) hc
    subst hrc
    rw [List.nil_append] at hperm
    cases hr' : r with
    | nil => simp [hasNext, h.hnc, hl, hc, hr'] at hn
    | cons c' r' =>
      have e1 : (hasNext C s).2 = { s with live := r, dead := c :: s.dead, decreased := true, hn := true, hnc := true } := by
        simp [hasNext, h.hnc, hl, hc, hr', hpure]
      rw [e1]
      by_cases hq : e = (c1, c2)
      · -- the exhausted child is brought back
        have hd := reconsider_nop (C := C) (e := (c1, c2)) (live := c :: r) (dead := s.dead)
          (fun d hd => by rw [← hq]; exact h.dead x d hd e (by simp))
        have hre : reconsider C (c1, c2) r (c :: s.dead) = (c :: r, s.dead) := by
          rw [reconsider, if_pos (by rw [D.val ha, hq]), hd]
        have e2 : moveto C cmv c1 c2 { s with live := r, dead := c :: s.dead, decreased := true, hn := true, hnc := true }
            = moveto C cmv c1 c2 s := by
          unfold moveto
          have hne : r.isEmpty = false := by rw [hr']; rfl
          simp only [hv, hq, hl, hre, hne, hd]
          simp
        rw [e2]; exact hseek
      · have hlt : Pair.lt e (c1, c2) := by
          apply Classical.byContradiction
          intro hc'
          exact hq (Pair.le_antisymm hge (Pair.not_lt.1 hc'))
        have hflt : (e :: rest).filter (fun p => decide (Pair.le (c1, c2) p)) =
            rest.filter fun p => decide (Pair.le (c1, c2) p) := by
          rw [List.filter_cons_of_neg]
          rw [decide_eq_true_eq]
          intro hc'
          exact hq (Pair.le_antisymm hge hc')
        obtain ⟨⟨ms', h1, h2⟩, h3⟩ := seekLoop_ok x c1 c2 (fun ha hn => hfail ha c1 c2 hn) hr [] (c :: s.dead)
          (msK := []) (by exact .nil)
        have hss := ((List.pairwise_cons.1 (h.str x)).2).filter (fun p => decide (Pair.le (c1, c2) p))
        rw [hflt]
        have hne : r.isEmpty = false := by rw [hr']; rfl
        have hmv : moveto C cmv c1 c2 { s with live := r, dead := c :: s.dead, decreased := true, hn := true, hnc := true }
            = { s with live := (seekLoop C cmv c1 c2 [] (c :: s.dead) r).1,
                       dead := (seekLoop C cmv c1 c2 [] (c :: s.dead) r).2, isSorted := false, decreased := false,
                       hn := !(seekLoop C cmv c1 c2 [] (c :: s.dead) r).1.isEmpty, hnc := true } := by
          unfold moveto
          simp only [hv, hq, hne]
          simp [hne]
        rw [hmv]
        refine ⟨rfl, rfl, .inr ⟨rfl, rfl⟩, SortedS.sorted hss, fun _ => hss, ⟨ms', h1, ?_⟩, ?_⟩
        · exact (hperm.filter _).trans (by simpa using h2.symm)
        · intro _ d hd p hp
          rw [List.mem_filter] at hp
          have hpc : Pair.le (c1, c2) p := by simpa using hp.2
          rcases h3 d hd with h4 | h4
          · rcases List.mem_cons.1 h4 with rfl | h4
            · rw [D.val ha]; exact (Pair.lt_of_lt_of_le hlt hpc).ne
            · exact h.dead x d h4 p (by simp [hp.1])
          · exact (Pair.lt_of_lt_of_le h4 hpc).ne

end Composite

theorem composite_seek_probed {sort : Sorter} (hsort : ∀ cs, Composite.SortSpec (famItr cs) (sort cs))
    (xs : List (Obj × List Pair))
    (h : ∀ x ∈ xs, x.1.Ready ∧ x.1.Returns x.2 ∧ Sorted x.2 ∧ SeekOK x.1.I x.1.mv x.1.s x.2 ∧
      (∀ s, (x.1.I.hasNext s).2 = s) ∧ FailBelow x.1.I x.1.mv x.1.s) {out} (h1 : SortedS out)
    (h2 : out.Perm (xs.flatMap (·.2))) (s) (hr : Reached (Obj.composite sort (objs xs)).I (Obj.composite sort (objs xs)).mv
      (Obj.composite sort (objs xs)).s s) (hn : ((Obj.composite sort (objs xs)).I.hasNext s).1 = true) :
    ∃ pre rest, out = pre ++ (Obj.composite sort (objs xs)).I.val s :: rest ∧
      Yields (Obj.composite sort (objs xs)).I s rest ∧ ∀ c1 c2,
      Pair.le ((Obj.composite sort (objs xs)).I.val s) (c1, c2) →
      Yields (Obj.composite sort (objs xs)).I ((Obj.composite sort (objs xs)).mv c1 c2
          ((Obj.composite sort (objs xs)).I.hasNext s).2)
        (((Obj.composite sort (objs xs)).I.val s :: rest).filter fun p => decide (Pair.le (c1, c2) p)) := by
  have hpure : ∀ o ∈ objs xs, ∀ s, (o.I.hasNext s).2 = s := by
    intro o ho
    obtain ⟨x, hx, rfl⟩ := List.mem_map.1 ho
    exact (h x hx).2.2.2.2.1
  have hpf : ∀ c : FamSt (objs xs), ((famItr (objs xs)).hasNext c).2 = c := fun c => by
    have := hpure ((objs xs).get c.1) (List.get_mem _ _) c.2
    simp only [famItr, this]
  let Q := FailBelow (famItr (objs xs)) (famMv (objs xs))
  have hg := Composite.good_init (D := seekDriver (famItr (objs xs)) (famMv (objs xs)) Q) (famList xs)
    (by
      intro y hy
      obtain ⟨x, hx, i, hi, rfl⟩ := famList_mem hy
      obtain ⟨h3, h4, h5, h6, h7, h8⟩ := h x hx
      refine ⟨⟨?_, _, x.2, ?_, h5, ?_, .inl rfl⟩, by rw [fam_ready (fun x hx => (h x hx).1) hy], h5⟩
      · apply fam_yields
        unfold Obj.Returns at h4
        rw [← hi] at h4
        exact h4
      · rw [← hi] at h8; exact fam_failBelow h8
      · rw [← hi] at h6; exact fam_seekOK h6) h1.sorted (fun _ => h1) (by rw [famList_snd]; exact h2)
  rw [fam_init (fun x hx => (h x hx).1)] at hg
  have hfail : ∀ {c e rest}, (seekDriver (famItr (objs xs)) (famMv (objs xs)) Q).At c e rest → ∀ c1 c2,
      ((famItr (objs xs)).hasNext (famMv (objs xs) c1 c2 c)).1 = false →
      Pair.lt ((famItr (objs xs)).val ((famItr (objs xs)).hasNext (famMv (objs xs) c1 c2 c)).2) (c1, c2) := by
    rintro c e rest ⟨-, -, s0, ps, hq, -, -, hr⟩ c1 c2 hn
    exact hq _ hr c1 c2 hn
  obtain ⟨pre, e, rest, h3, h4⟩ := (Composite.driver (sort := sort (objs xs)) (hsort _)
    (seekDriver (famItr (objs xs)) (famMv (objs xs)) Q) (fun _ c => by rw [hpf]) (fun _ => hfail)).reached (.inl hg) hr.on
  have hv : (Obj.composite sort (objs xs)).I.val s = e := h3.1.v
  rw [hv]
  refine ⟨pre, rest, h4, (Composite.driver (sort := sort (objs xs)) (hsort _)
    (seekDriver (famItr (objs xs)) (famMv (objs xs)) Q) (fun _ c => by rw [hpf]) (fun _ => hfail)).yields (.inr ⟨_, h3.1⟩),
    fun c1 c2 hge => ?_⟩
  exact (Composite.driver (sort := sort (objs xs)) (hsort _)
    (seekDriver (famItr (objs xs)) (famMv (objs xs)) Q) (fun _ c => by rw [hpf]) (fun _ => hfail)).yields
    (.inl (Composite.seek_probed trivial hpf hfail h3.1 hn c1 c2 hge))

end Trident
