import Verif.Iter.Composite
/-! Lemmas about the merge of iterators (no property statements here). -/
namespace Trident

theorem Pair.le_refl (a : Pair) : Pair.le a a := by unfold Pair.le; omega
theorem Pair.le_trans {a b c : Pair} (h : Pair.le a b) (h' : Pair.le b c) : Pair.le a c := by
  unfold Pair.le at *; omega
theorem Pair.le_antisymm {a b : Pair} (h : Pair.le a b) (h' : Pair.le b a) : a = b := by
  unfold Pair.le at *; exact Prod.ext (by omega) (by omega)
theorem Pair.not_lt {a b : Pair} : ¬ Pair.lt a b ↔ Pair.le b a := by
  unfold Pair.lt Pair.le; omega
theorem Pair.lt_of_lt_of_le {a b c : Pair} (h : Pair.lt a b) (h' : Pair.le b c) : Pair.lt a c := by
  unfold Pair.lt Pair.le at *; omega
theorem Pair.lt_of_le_of_lt {a b c : Pair} (h : Pair.le a b) (h' : Pair.lt b c) : Pair.lt a c := by
  unfold Pair.lt Pair.le at *; omega
theorem Pair.lt.le {a b : Pair} (h : Pair.lt a b) : Pair.le a b := by
  unfold Pair.lt Pair.le at *; omega
theorem Pair.lt.ne {a b : Pair} (h : Pair.lt a b) : a ≠ b := by
  intro e; subst e; unfold Pair.lt at h; omega
theorem Pair.le_total (a b : Pair) : Pair.le a b ∨ Pair.le b a := by unfold Pair.le; omega

/-- The smallest element of a sorted list comes first. -/
theorem Sorted.split_min {out ms : List Pair} {e : Pair} (h : Sorted out) (hp : out.Perm (e :: ms))
    (hmin : ∀ p ∈ ms, Pair.le e p) : ∃ rest, out = e :: rest ∧ Sorted rest ∧ rest.Perm ms := by
  cases out with
  | nil => exact absurd hp.length_eq (by simp)
  | cons x rest =>
    rw [Sorted, List.pairwise_cons] at h
    have hx : Pair.le e x := by
      have : x ∈ e :: ms := hp.subset (by simp)
      rcases List.mem_cons.1 this with rfl | hx
      · exact Pair.le_refl _
      · exact hmin x hx
    have he : Pair.le x e := by
      have : e ∈ x :: rest := hp.symm.subset (by simp)
      rcases List.mem_cons.1 this with rfl | hx
      · exact Pair.le_refl _
      · exact h.1 e hx
    have := Pair.le_antisymm hx he
    subst this
    exact ⟨rest, rfl, h.2, (List.perm_cons _).1 hp⟩

namespace Composite
variable {σ : Type} {C : Itr σ Pair} {cmv : Int → Int → σ → σ} {sort : List σ → List σ}
  {X : Prop} {keep : Int → Int → Pair → Bool}

/-- The children `live` have just returned their values; `ms` is all they have left, including
these values. -/
inductive Rem (D : DriverK C cmv (fun _ _ _ => X) keep) : List σ → List Pair → Prop
  | nil : Rem D [] []
  | cons {c e rest r ms} : D.At c e rest → Sorted (e :: rest) → Rem D r ms →
      Rem D (c :: r) ((e :: rest) ++ ms)

theorem Rem.perm {D : DriverK C cmv (fun _ _ _ => X) keep} {l l' : List σ} (hp : l.Perm l') {ms} (h : Rem D l ms) :
    ∃ ms', Rem D l' ms' ∧ ms'.Perm ms := by
  induction hp generalizing ms with
  | nil => exact ⟨ms, h, List.Perm.refl _⟩
  | cons x _ ih =>
    cases h with
    | cons ha hs hr =>
      obtain ⟨ms', h1, h2⟩ := ih hr
      exact ⟨_, .cons ha hs h1, h2.append_left _⟩
  | swap x y l =>
    cases h with
    | cons ha hs hr =>
      cases hr with
      | cons ha' hs' hr' =>
        refine ⟨_, .cons ha' hs' (.cons ha hs hr'), ?_⟩
        rw [← List.append_assoc, ← List.append_assoc]
        exact List.perm_append_comm.append_right _
  | trans _ _ ih1 ih2 =>
    obtain ⟨m1, h1, h2⟩ := ih1 h
    obtain ⟨m2, h3, h4⟩ := ih2 h1
    exact ⟨m2, h3, h4.trans h2⟩

theorem Rem.min {D : DriverK C cmv (fun _ _ _ => X) keep} {l ms} (h : Rem D l ms) {v : Pair}
    (hv : ∀ c ∈ l, Pair.le v (C.val c)) : ∀ p ∈ ms, Pair.le v p := by
  induction h with
  | nil => simp
  | cons ha hs _ ih =>
    intro p hp
    rcases List.mem_append.1 hp with hp | hp
    · have h1 := hv _ List.mem_cons_self
      rw [D.val ha] at h1
      rcases List.mem_cons.1 hp with rfl | hp
      · exact h1
      · exact Pair.le_trans h1 ((List.pairwise_cons.1 hs).1 p hp)
    · exact ih (fun c hc => hv c (by simp [hc])) p hp

theorem Rem.append {D : DriverK C cmv (fun _ _ _ => X) keep} {l l' ms ms'} (h : Rem D l ms) (h' : Rem D l' ms') :
    Rem D (l ++ l') (ms ++ ms') := by
  induction h with
  | nil => exact h'
  | cons ha hs _ ih => rw [List.cons_append, List.append_assoc]; exact .cons ha hs ih

theorem bubble_perm (c : σ) (l : List σ) : (bubble C c l).Perm (c :: l) := by
  induction l with
  | nil => exact List.Perm.refl _
  | cons x r ih =>
    simp only [bubble]
    split
    · exact (ih.cons x).trans (List.Perm.swap _ _ _)
    · exact List.Perm.refl _

theorem bubble_sorted (c : σ) (l : List σ) (h : l.Pairwise fun a b => Pair.le (C.val a) (C.val b)) :
    (bubble C c l).Pairwise fun a b => Pair.le (C.val a) (C.val b) := by
  induction l with
  | nil => simp [bubble]
  | cons x r ih =>
    simp only [bubble]
    rw [List.pairwise_cons] at h
    split
    · rename_i hg
      simp only [gt, decide_eq_true_eq] at hg
      rw [List.pairwise_cons]
      refine ⟨fun y hy => ?_, ih h.2⟩
      rcases List.mem_cons.1 ((bubble_perm c r).subset hy) with rfl | hy
      · exact hg.le
      · exact h.1 y hy
    · rename_i hg
      simp only [gt, decide_eq_true_eq, Pair.not_lt] at hg
      rw [List.pairwise_cons]
      refine ⟨fun y hy => ?_, List.pairwise_cons.2 h⟩
      rcases List.mem_cons.1 hy with rfl | hy
      · exact hg
      · exact Pair.le_trans hg (h.1 y hy)

theorem rearrange_perm (hs : SortSpec C sort) (l : List σ) : (rearrange C sort l).Perm l := by
  unfold rearrange
  split
  · split
    · exact List.Perm.swap _ _ _
    · exact List.Perm.refl _
  · split
    · exact hs.perm _
    · exact List.Perm.refl _

theorem rearrange_sorted (hs : SortSpec C sort) (l : List σ) :
    (rearrange C sort l).Pairwise fun a b => Pair.le (C.val a) (C.val b) := by
  unfold rearrange
  split
  · split
    · rename_i hg; simp only [gt, decide_eq_true_eq] at hg; simpa using hg.le
    · rename_i hg; simp only [gt, decide_eq_true_eq, Pair.not_lt] at hg; simpa using hg
  · rename_i hl
    split
    · exact hs.sorted _
    · match l, hl with
      | [], _ => simp
      | [a], _ => simp
      | [a, b], hl => exact absurd rfl (hl a b)
      | a :: b :: c :: r, _ => rename_i h; simp at h

/-- Right after `next`: the last child's value was returned. -/
structure AtC (D : DriverK C cmv (fun _ _ _ => X) keep) (s : St σ) (e : Pair) (rest : List Pair) : Prop where
  hnc : s.hnc = false
  ord : s.live.Pairwise fun a b => Pair.le (C.val a) (C.val b)
  srt : s.isSorted = true ∨ s.live.length ≤ 1
  v : s.v = e
  srest : Sorted rest
  str : X → SortedS (e :: rest)
  ch : ∃ c r, s.live = c :: r ∧ ∃ ms, Rem D s.live ms ∧ (e :: rest).Perm ms ∧ C.val c = e
  dead : X → ∀ d ∈ s.dead, ∀ p ∈ e :: rest, C.val d ≠ p

/-- Just opened or just moved: every child is one `next` away from its values. -/
structure FreshC (D : DriverK C cmv (fun _ _ _ => X) keep) (s : St σ) (out : List Pair) : Prop where
  hnc : s.hnc = true
  hn : s.hn = !s.live.isEmpty
  uns : s.live = [] ∨ (s.isSorted = false ∧ s.decreased = false)
  sout : Sorted out
  str : X → SortedS out
  ch : ∃ ms, Rem D (s.live.map C.next) ms ∧ out.Perm ms
  dead : X → ∀ d ∈ s.dead, ∀ p ∈ out, C.val d ≠ p

/-- What `next` does to the children. -/
theorem next_of_live {D : DriverK C cmv (fun _ _ _ => X) keep} {s : St σ} {c r live ms out}
    (hl : live = c :: r) (hord : live.Pairwise fun a b => Pair.le (C.val a) (C.val b))
    (hrem : Rem D live ms) (hout : Sorted out) (hperm : out.Perm ms)
    (hsrt : s.isSorted = true ∨ live.length ≤ 1)
    (hlive : s.live = live) (hstr : X → SortedS out) (hdead : X → ∀ d ∈ s.dead, ∀ p ∈ out, C.val d ≠ p) :
    ∃ e rest, out = e :: rest ∧ AtC D { s with v := C.val c, hnc := false } e rest := by
  subst hl
  have hmin := hrem.min (v := C.val c) (fun x hx => by
    rcases List.mem_cons.1 hx with rfl | hx
    · exact Pair.le_refl _
    · exact (List.pairwise_cons.1 hord).1 x hx)
  cases hrem with
  | cons ha hs hr =>
    rename_i e rest ms'
    have he := D.val ha
    rw [he] at hmin
    rw [List.cons_append] at hperm hmin
    obtain ⟨rest', h1, h2, h3⟩ := hout.split_min hperm (fun p hp => hmin p (by simp [hp]))
    refine ⟨e, rest', h1, rfl, by simpa [hlive] using hord, by simpa [hlive] using hsrt, he, h2, by rw [← h1]; exact hstr,
      ⟨c, r, hlive, _, by rw [hlive]; exact .cons ha hs hr, ?_, he⟩, by rw [← h1]; exact hdead⟩
    rw [List.cons_append]
    exact h3.cons _

theorem more_fresh (hs : SortSpec C sort) {D : DriverK C cmv (fun _ _ _ => X) keep} {s : St σ} {out}
    (h : FreshC D s out) (hn : (hasNext C s).1 = true) :
    ∃ e rest, out = e :: rest ∧ AtC D (next C sort (hasNext C s).2) e rest := by
  have e1 : hasNext C s = (s.hn, s) := by simp [hasNext, h.hnc]
  rw [e1] at hn ⊢
  simp only at hn ⊢
  rw [h.hn] at hn
  cases hl : s.live with
  | nil => rw [hl] at hn; simp at hn
  | cons c r =>
    obtain ⟨ms, h1, h2⟩ := h.ch
    obtain ⟨h3, h4⟩ : s.isSorted = false ∧ s.decreased = false := by
      rcases h.uns with h3 | h3
      · rw [hl] at h3; simp at h3
      · exact h3
    rw [hl, List.map_cons] at h1
    by_cases hr : r = []
    · subst hr
      have e2 : next C sort s = { s with live := [C.next c], v := C.val (C.next c), hnc := false } := by
        simp [next, h.hnc, h4, hl, bubble]
      rw [e2]
      exact next_of_live (s := { s with live := [C.next c] }) (live := [C.next c]) rfl (by simp) h1
        h.sout h2 (.inr (by simp)) rfl h.str h.dead
    · have hp := rearrange_perm hs (C.next c :: r.map C.next)
      have ho := rearrange_sorted hs (C.next c :: r.map C.next)
      obtain ⟨ms', h5, h6⟩ := h1.perm hp.symm
      cases hq : rearrange C sort (C.next c :: r.map C.next) with
      | nil => rw [hq] at hp; exact absurd hp.length_eq (by simp)
      | cons c' r' =>
        have e2 : next C sort s = { s with live := c' :: r', isSorted := true, v := C.val c', hnc := false } := by
          simp [next, h.hnc, h4, hl, h3, hr, hq]
        rw [e2]
        rw [hq] at ho h5
        exact next_of_live (s := { s with live := c' :: r', isSorted := true }) rfl ho h5
          h.sout (h2.trans h6.symm) (.inl rfl) rfl h.str h.dead

theorem hasNext_at {D : DriverK C cmv (fun _ _ _ => X) keep} {s : St σ} {e rest} (h : AtC D s e rest) :
    ∃ c r rc ms, s.live = c :: r ∧ D.At c e rc ∧ Sorted (e :: rc) ∧ Rem D r ms ∧ rest.Perm (rc ++ ms) := by
  obtain ⟨c, r, hl, ms, h1, h2, h3⟩ := h.ch
  rw [hl] at h1
  cases h1 with
  | cons ha hs hr =>
    rename_i e' rc ms'
    have := D.val ha
    rw [h3] at this; subst this
    exact ⟨c, r, rc, ms', hl, ha, hs, hr, by rw [List.cons_append] at h2; exact (List.perm_cons _).1 h2⟩

theorem more_at {D : DriverK C cmv (fun _ _ _ => X) keep} {s : St σ} {e rest}
    (hval : X → ∀ c, C.val (C.hasNext c).2 = C.val c)
    (h : AtC D s e rest) (hn : (hasNext C s).1 = true) :
    ∃ e' rest', rest = e' :: rest' ∧ AtC D (next C sort (hasNext C s).2) e' rest' := by
  obtain ⟨c, r, rc, ms, hl, ha, hsc, hr, hperm⟩ := hasNext_at h
  have hord := h.ord
  rw [hl, List.pairwise_cons] at hord
  have hdead := h.dead
  cases hc : (C.hasNext c).1 with
  | true =>
    obtain ⟨e', rc', h1, h2⟩ := D.more (D.good ha) hc
    have e1 : (hasNext C s).2 = { s with live := (C.hasNext c).2 :: r, decreased := false, hn := true, hnc := true } := by
      simp [hasNext, h.hnc, hl, hc]
    rw [e1]
    have hp := bubble_perm (C := C) (C.next (C.hasNext c).2) r
    have ho := bubble_sorted (C := C) (C.next (C.hasNext c).2) r hord.2
    have hsr : Sorted (e' :: rc') := by rw [← h1]; exact (List.pairwise_cons.1 hsc).2
    have hrem : Rem D (C.next (C.hasNext c).2 :: r) ((e' :: rc') ++ ms) := .cons h2 hsr hr
    obtain ⟨ms', h5, h6⟩ := hrem.perm hp.symm
    cases hq : bubble C (C.next (C.hasNext c).2) r with
    | nil => rw [hq] at hp; exact absurd hp.length_eq (by simp)
    | cons c' r' =>
      rw [hq] at ho h5
      have hcond : (!s.isSorted && !r.isEmpty) = false := by
        rcases h.srt with h7 | h7
        · simp [h7]
        · rw [hl] at h7; cases r with
          | nil => simp
          | cons _ _ => simp at h7
      have e2 : next C sort { s with live := (C.hasNext c).2 :: r, decreased := false, hn := true, hnc := true }
          = { s with live := c' :: r', decreased := false, hn := true, v := C.val c', hnc := false } := by
        simp only [next, if_true, hcond, hq]
        rfl
      rw [e2]
      refine next_of_live (s := { s with live := c' :: r', decreased := false, hn := true }) rfl ho h5
        h.srest ?_ ?_ rfl (fun x => (List.pairwise_cons.1 (h.str x)).2) ?_
      · rw [h1] at hperm; exact hperm.trans h6.symm
      · have hlen := hp.length_eq
        rw [hq] at hlen
        rcases h.srt with h7 | h7
        · exact .inl h7
        · rw [hl] at h7; right; simp only [List.length_cons] at *; omega
      · intro x d hd' p hp'; exact hdead x d hd' p (by simp [hp'])
  | false =>
    have hrc := D.done (D.good ha) hc
    subst hrc
    rw [List.nil_append] at hperm
    cases hr' : r with
    | nil =>
      simp [hasNext, h.hnc, hl, hc, hr'] at hn
    | cons c' r' =>
      have e1 : (hasNext C s).2 = { s with live := c' :: r', dead := (C.hasNext c).2 :: s.dead, decreased := true, hn := true, hnc := true } := by
        simp [hasNext, h.hnc, hl, hc, hr']
      rw [e1]
      have e2 : next C sort { s with live := c' :: r', dead := (C.hasNext c).2 :: s.dead, decreased := true, hn := true, hnc := true }
          = { s with live := c' :: r', dead := (C.hasNext c).2 :: s.dead, decreased := true, hn := true, v := C.val c', hnc := false } := by
        simp [next]
      rw [e2]
      rw [hr'] at hr hord
      refine next_of_live (s := { s with live := c' :: r', dead := (C.hasNext c).2 :: s.dead, decreased := true, hn := true }) rfl hord.2 hr
        h.srest hperm ?_ rfl (fun x => (List.pairwise_cons.1 (h.str x)).2) ?_
      · rcases h.srt with h7 | h7
        · exact .inl h7
        · rw [hl, hr'] at h7; simp at h7
      · intro x d hd' p hp'
        rcases List.mem_cons.1 hd' with rfl | hd'
        · rw [hval x, D.val ha]; exact ((List.pairwise_cons.1 (h.str x)).1 p hp').ne
        · exact hdead x d hd' p (by simp [hp'])

theorem done_at {D : DriverK C cmv (fun _ _ _ => X) keep} {s : St σ} {e rest}
    (h : AtC D s e rest) (hn : (hasNext C s).1 = false) : rest = [] := by
  obtain ⟨c, r, rc, ms, hl, ha, hsc, hr, hperm⟩ := hasNext_at h
  cases hc : (C.hasNext c).1 with
  | true => simp [hasNext, h.hnc, hl, hc] at hn
  | false =>
    have hrc := D.done (D.good ha) hc
    subst hrc
    simp [hasNext, h.hnc, hl, hc] at hn
    subst hn
    cases hr
    simpa using hperm

theorem done_fresh {D : DriverK C cmv (fun _ _ _ => X) keep} {s : St σ} {out}
    (h : FreshC D s out) (hn : (hasNext C s).1 = false) : out = [] := by
  simp [hasNext, h.hnc, h.hn] at hn
  obtain ⟨ms, h1, h2⟩ := h.ch
  rw [hn] at h1
  cases h1
  simpa using h2

theorem rot_perm (l : List σ) : (rot l).Perm l := by
  cases l with
  | nil => exact List.Perm.refl _
  | cons h t => exact List.perm_append_comm

theorem seekLoop_ok {D : DriverK C cmv (fun _ _ _ => X) keep} (x : X) (c1 c2 : Int)
    (hfail : ∀ {c e rest}, D.At c e rest → (C.hasNext (cmv c1 c2 c)).1 = false →
      Pair.lt (C.val (C.hasNext (cmv c1 c2 c)).2) (c1, c2))
    {live ms} (h : Rem D live ms) (kept dead : List σ) {msK} (hk : Rem D (kept.map C.next) msK) :
    (∃ ms', Rem D ((seekLoop C cmv c1 c2 kept dead live).1.map C.next) ms' ∧
      ms'.Perm (msK ++ ms.filter (keep c1 c2))) ∧
    ∀ d ∈ (seekLoop C cmv c1 c2 kept dead live).2, d ∈ dead ∨ Pair.lt (C.val d) (c1, c2) := by
  induction h generalizing kept dead msK with
  | nil => exact ⟨⟨msK, hk, by simp⟩, fun d hd => .inl hd⟩
  | cons ha hs hr ih =>
    rename_i c e rest r ms
    have hg := D.seek ha c1 c2 x
    simp only [seekLoop]
    cases hn : (C.hasNext (cmv c1 c2 c)).1 with
    | true =>
      simp only [if_true]
      obtain ⟨e', rest', h1, h2⟩ := D.more hg hn
      have hs' : Sorted (e' :: rest') := by rw [← h1]; exact List.Pairwise.filter _ hs
      have hk' : Rem D ((kept ++ [(C.hasNext (cmv c1 c2 c)).2]).map C.next) (msK ++ ((e' :: rest') ++ [])) := by
        rw [List.map_append]
        exact hk.append (.cons h2 hs' .nil)
      obtain ⟨⟨ms', h3, h4⟩, h5⟩ := ih _ dead hk'
      refine ⟨⟨ms', h3, h4.trans ?_⟩, h5⟩
      rw [List.append_nil, List.filter_append, h1, List.append_assoc]
    | false =>
      simp only [Bool.false_eq_true, if_false]
      have h1 := D.done hg hn
      obtain ⟨msK', hk', hkp⟩ := hk.perm ((rot_perm kept).map C.next).symm
      obtain ⟨⟨ms', h3, h4⟩, h5⟩ := ih (rot kept) ((C.hasNext (cmv c1 c2 c)).2 :: dead) hk'
      refine ⟨⟨ms', h3, h4.trans ?_⟩, fun d hd => ?_⟩
      · rw [List.filter_append, h1, List.nil_append]
        exact hkp.append_right _
      · rcases h5 d hd with h6 | h6
        · rcases List.mem_cons.1 h6 with rfl | h6
          · exact .inr (hfail ha hn)
          · exact .inl h6
        · exact .inr h6

theorem reconsider_nop {e : Pair} {live dead : List σ} (h : ∀ d ∈ dead, C.val d ≠ e) :
    reconsider C e live dead = (live, dead) := by
  cases dead with
  | nil => rfl
  | cons d r => simp [reconsider, h d (by simp)]

theorem seek_at {D : DriverK C cmv (fun _ _ _ => X) fun c1 c2 p => decide (Pair.le (c1, c2) p)}
    (x : X) {s : St σ} {e rest}
    (hfail : ∀ {c e rest}, D.At c e rest → ∀ c1 c2, (C.hasNext (cmv c1 c2 c)).1 = false →
      Pair.lt (C.val (C.hasNext (cmv c1 c2 c)).2) (c1, c2))
    (h : AtC D s e rest) (c1 c2 : Int) :
    FreshC D (moveto C cmv c1 c2 s) ((e :: rest).filter fun p => decide (Pair.le (c1, c2) p)) := by
  obtain ⟨c, r, hl, ms, hrem, hperm, -⟩ := h.ch
  have hre : (if s.v = (c1, c2) && !s.live.isEmpty then reconsider C (c1, c2) s.live s.dead
    else (s.live, s.dead)) = (s.live, s.dead) := by
    split
    · rename_i hv
      simp only [Bool.and_eq_true, decide_eq_true_eq] at hv
      rw [h.v] at hv
      apply reconsider_nop
      intro d hd; rw [← hv.1]; exact h.dead x d hd e (by simp)
    · rfl
  obtain ⟨⟨ms', h1, h2⟩, h3⟩ := seekLoop_ok x c1 c2 (fun ha hn => hfail ha c1 c2 hn) hrem [] s.dead
    (msK := []) (by exact .nil)
  have hss := (h.str x).filter (fun p => decide (Pair.le (c1, c2) p))
  refine ⟨by simp [moveto], ?_, ?_, SortedS.sorted hss, fun _ => hss, ?_, ?_⟩
  · rfl
  · simp only [moveto, hre]; right; simp [hl]
  · simp only [moveto, hre]
    exact ⟨ms', h1, ((hperm.filter _).trans (by simpa using h2.symm))⟩
  · intro _ d hd p hp
    simp only [moveto, hre] at hd
    rw [List.mem_filter] at hp
    rcases h3 d hd with h4 | h4
    · exact h.dead x d h4 p hp.1
    · exact (Pair.lt_of_lt_of_le h4 (by simpa using hp.2)).ne

/-- The device for the merge: with `X` false (plain scans) inputs may overlap; with `X` true (clients
that seek) they must be disjoint. -/
def driver (hs : SortSpec C sort)
    (D : DriverK C cmv (fun _ _ _ => X) fun c1 c2 p => decide (Pair.le (c1, c2) p))
    (hval : X → ∀ c, C.val (C.hasNext c).2 = C.val c)
    (hfail : X → ∀ {c e rest}, D.At c e rest → ∀ c1 c2, (C.hasNext (cmv c1 c2 c)).1 = false →
      Pair.lt (C.val (C.hasNext (cmv c1 c2 c)).2) (c1, c2)) :
    DriverK (itr C sort) (moveto C cmv) (fun _ _ _ => X) fun c1 c2 p => decide (Pair.le (c1, c2) p) where
  Good s out := FreshC D s out ∨ ∃ e, AtC D s e out
  At s e rest := AtC D s e rest ∧ Sorted (e :: rest)
  more := by
    intro s out h hn
    have key : ∃ e rest, out = e :: rest ∧ AtC D (next C sort (hasNext C s).2) e rest := by
      rcases h with h | ⟨e, h⟩
      · exact more_fresh hs h hn
      · exact more_at hval h hn
    obtain ⟨e, rest, h1, h2⟩ := key
    refine ⟨e, rest, h1, h2, ?_⟩
    rw [← h1]
    rcases h with h | ⟨e, h⟩
    · exact h.sout
    · exact h.srest
  done := by
    intro s out h hn
    rcases h with h | ⟨e, h⟩
    · exact done_fresh h hn
    · exact done_at h hn
  val h := h.1.v
  good h := .inr ⟨_, h.1⟩
  suffix h c1 c2 _ := h.2.filter_ge_suffix (c1, c2)
  seek h c1 c2 x := .inl (seek_at x (hfail x) h.1 c1 c2)

/-- Opening the merge on children for which `hasNext` was called and returned true. -/
theorem good_init {D : DriverK C cmv (fun _ _ _ => X) keep} (xs : List (σ × List Pair))
    (h : ∀ y ∈ xs, D.Good y.1 y.2 ∧ (C.hasNext y.1).1 = true ∧ Sorted y.2) {out}
    (hout : Sorted out) (hstr : X → SortedS out) (hperm : out.Perm (xs.map (·.2)).flatten) :
    FreshC D (init (xs.map fun y => (C.hasNext y.1).2)) out := by
  have key : ∃ ms, Rem D ((xs.map fun y => (C.hasNext y.1).2).map C.next) ms ∧
      (xs.map (·.2)).flatten.Perm ms := by
    clear hperm
    induction xs with
    | nil => exact ⟨[], .nil, by simp⟩
    | cons y xs ih =>
      obtain ⟨ms, h1, h2⟩ := ih (fun z hz => h z (by simp [hz]))
      obtain ⟨h3, h4, h5⟩ := h y (by simp)
      obtain ⟨e, rest, h6, h7⟩ := D.more h3 h4
      refine ⟨_, .cons h7 (by rw [← h6]; exact h5) h1, ?_⟩
      simp only [List.map_cons, List.flatten_cons, h6]
      exact h2.append_left _
  obtain ⟨ms, h1, h2⟩ := key
  obtain ⟨ms', h3, h4⟩ := h1.perm ((List.reverse_perm _).map C.next).symm
  refine ⟨rfl, ?_, .inr ⟨rfl, rfl⟩, hout, hstr, ⟨ms', h3, hperm.trans (h2.trans h4.symm)⟩, ?_⟩
  · simp [init]
  · intro _ d hd; simp [init] at hd

end Composite
end Trident
