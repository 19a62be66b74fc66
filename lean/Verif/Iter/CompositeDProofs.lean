import Verif.Iter.CompositeProofs
/-! Lemmas about the merge of iterators in distinct mode (no property statements here). -/
namespace Trident

/-- `out` lists the distinct first values of `ms` in increasing order, each with the sum of the
second values. -/
def IsSum (ms out : List Pair) : Prop :=
  (out.map (·.1)).Pairwise (· < ·) ∧ (∀ v, v ∈ out.map (·.1) ↔ v ∈ ms.map (·.1)) ∧
  ∀ q ∈ out, q.2 = ((ms.filter fun p => p.1 = q.1).map (·.2)).sum

theorem sum_perm {l l' : List Int} (h : l.Perm l') : l.sum = l'.sum := by
  induction h with
  | nil => rfl
  | cons x _ ih => simp [ih]
  | swap x y l => simp; omega
  | trans _ _ h1 h2 => rw [h1, h2]

theorem IsSum.perm {ms ms' out} (h : IsSum ms out) (hp : ms.Perm ms') : IsSum ms' out := by
  obtain ⟨h1, h2, h3⟩ := h
  refine ⟨h1, fun v => (h2 v).trans (hp.map (·.1)).mem_iff, fun q hq => ?_⟩
  rw [h3 q hq]
  exact sum_perm ((hp.filter _).map _)

theorem IsSum.nil {out} (h : IsSum [] out) : out = [] := by
  cases out with
  | nil => rfl
  | cons q out => have := (h.2.1 q.1).1 (by simp); simp at this

theorem IsSum.tail {ms e rest} (h : IsSum ms (e :: rest)) :
    IsSum (ms.filter fun p => decide (p.1 ≠ e.1)) rest := by
  obtain ⟨h1, h2, h3⟩ := h
  rw [List.map_cons, List.pairwise_cons] at h1
  refine ⟨h1.2, fun v => ?_, fun q hq => ?_⟩
  · constructor
    · intro hv
      have h4 := h1.1 v hv
      have h5 := (h2 v).1 (by simp only [List.map_cons, List.mem_cons]; exact .inr hv)
      obtain ⟨p, hp, rfl⟩ := List.mem_map.1 h5
      exact List.mem_map.2 ⟨p, List.mem_filter.2 ⟨hp, by simp; omega⟩, rfl⟩
    · intro hv
      obtain ⟨p, hp, rfl⟩ := List.mem_map.1 hv
      obtain ⟨h4, h5⟩ := List.mem_filter.1 hp
      have h6 := (h2 p.1).2 (List.mem_map.2 ⟨p, h4, rfl⟩)
      simp only [List.map_cons, List.mem_cons] at h6
      rcases h6 with h6 | h6
      · simp [h6] at h5
      · exact h6
  · rw [h3 q (by simp [hq]), List.filter_filter]
    have h4 := h1.1 q.1 (List.mem_map.2 ⟨q, hq, rfl⟩)
    congr 2
    apply List.filter_congr
    intro p _
    by_cases hp : p.1 = q.1 <;> simp [hp]; omega

theorem IsSum.cons_of_min {ms out} {v : Int} (h : IsSum ms out) (hv : v ∈ ms.map (·.1))
    (hmin : ∀ p ∈ ms, v ≤ p.1) :
    ∃ rest, out = (v, ((ms.filter fun p => p.1 = v).map (·.2)).sum) :: rest := by
  cases out with
  | nil => have := (h.2.1 v).2 hv; simp at this
  | cons e rest =>
    refine ⟨rest, ?_⟩
    have h1 := h.1
    rw [List.map_cons, List.pairwise_cons] at h1
    have he : e.1 = v := by
      have h2 := (h.2.1 v).2 hv
      have h3 := (h.2.1 e.1).1 (by simp)
      obtain ⟨p, hp, hpe⟩ := List.mem_map.1 h3
      have h4 := hmin p hp
      simp only [List.map_cons, List.mem_cons] at h2
      rcases h2 with h2 | h2
      · exact h2.symm
      · have := h1.1 v h2; omega
    have := h.2.2 e (by simp)
    rw [he] at this
    rw [← this, ← he]

namespace Composite
variable {σ : Type} {C : Itr σ Pair} {cmv : Int → Int → σ → σ} {sort : List σ → List σ}
  {tie : σ → σ → Bool} {X : Prop} {keep : Int → Int → Pair → Bool}

/-- As `Rem`, for children in distinct mode. -/
inductive RemD (D : DriverK C cmv (fun _ _ _ => X) keep) : List σ → List Pair → Prop
  | nil : RemD D [] []
  | cons {c e rest r ms} : D.At c e rest → ((e :: rest).map (·.1)).Pairwise (· < ·) → RemD D r ms →
      RemD D (c :: r) ((e :: rest) ++ ms)

variable {D : DriverK C cmv (fun _ _ _ => X) keep}

theorem RemD.perm {l l' : List σ} (hp : l.Perm l') {ms} (h : RemD D l ms) :
    ∃ ms', RemD D l' ms' ∧ ms'.Perm ms := by
  induction hp generalizing ms with
  | nil => exact ⟨ms, h, List.Perm.refl _⟩
  | cons x _ ih =>
    cases h with
    | cons ha hs hr =>
      obtain ⟨ms', h1, h2⟩ := ih hr
      exact ⟨_, .cons ha hs h1, h2.append_left _⟩
  | swap x y l =>
    cases h with
    | cons ha hs hr =>
      cases hr with
      | cons ha' hs' hr' =>
        refine ⟨_, .cons ha' hs' (.cons ha hs hr'), ?_⟩
        rw [← List.append_assoc, ← List.append_assoc]
        exact List.perm_append_comm.append_right _
  | trans _ _ ih1 ih2 =>
    obtain ⟨m1, h1, h2⟩ := ih1 h
    obtain ⟨m2, h3, h4⟩ := ih2 h1
    exact ⟨m2, h3, h4.trans h2⟩

theorem RemD.append {l l' ms ms'} (h : RemD D l ms) (h' : RemD D l' ms') :
    RemD D (l ++ l') (ms ++ ms') := by
  induction h with
  | nil => exact h'
  | cons ha hs _ ih => rw [List.cons_append, List.append_assoc]; exact .cons ha hs ih

theorem RemD.min {l ms} (h : RemD D l ms) {v : Int}
    (hv : ∀ c ∈ l, v ≤ (C.val c).1) : ∀ p ∈ ms, v ≤ p.1 := by
  induction h with
  | nil => simp
  | cons ha hs _ ih =>
    intro p hp
    rcases List.mem_append.1 hp with hp | hp
    · have h1 := hv _ List.mem_cons_self
      rw [D.val ha] at h1
      rcases List.mem_cons.1 hp with rfl | hp
      · exact h1
      · rw [List.map_cons, List.pairwise_cons] at hs
        have := hs.1 p.1 (List.mem_map.2 ⟨p, hp, rfl⟩)
        omega
    · exact ih (fun c hc => hv c (by simp [hc])) p hp

/-- The current values of the children at `v` are all that is left of `v`. -/
theorem RemD.count {l ms} (h : RemD D l ms) {v : Int} (hv : ∀ c ∈ l, v ≤ (C.val c).1) :
    countD C v l = ((ms.filter fun p => p.1 = v).map (·.2)).sum := by
  induction h with
  | nil => simp [countD]
  | cons ha hs _ ih =>
    rename_i c e rest r ms _
    have ih := ih (fun c hc => hv c (by simp [hc]))
    have h1 := hv c List.mem_cons_self
    have he := D.val ha
    rw [he] at h1
    rw [List.map_cons, List.pairwise_cons] at hs
    have hrest : rest.filter (fun p => decide (p.1 = v)) = [] := by
      rw [List.filter_eq_nil_iff]
      intro p hp
      have := hs.1 p.1 (List.mem_map.2 ⟨p, hp, rfl⟩)
      simp; omega
    unfold countD at ih ⊢
    rw [List.filter_append, List.map_append, List.sum_append, ← ih, List.filter_cons, List.filter_cons, hrest, he]
    by_cases hev : e.1 = v
    · simp [hev, he]
    · simp [hev]

theorem bubbleD_perm (c : σ) (l : List σ) : (bubbleD C tie c l).Perm (c :: l) := by
  induction l with
  | nil => exact List.Perm.refl _
  | cons x r ih =>
    simp only [bubbleD]
    split
    · exact (ih.cons x).trans (List.Perm.swap _ _ _)
    · exact List.Perm.refl _

theorem bubbleD_sorted (c : σ) (l : List σ) (h : l.Pairwise fun a b => (C.val a).1 ≤ (C.val b).1) :
    (bubbleD C tie c l).Pairwise fun a b => (C.val a).1 ≤ (C.val b).1 := by
  induction l with
  | nil => simp [bubbleD]
  | cons x r ih =>
    simp only [bubbleD]
    rw [List.pairwise_cons] at h
    split
    · rename_i hg
      simp only [gtD, Bool.or_eq_true, decide_eq_true_eq, Bool.and_eq_true, beq_iff_eq] at hg
      rw [List.pairwise_cons]
      refine ⟨fun y hy => ?_, ih h.2⟩
      rcases List.mem_cons.1 ((bubbleD_perm c r).subset hy) with rfl | hy
      · omega
      · exact h.1 y hy
    · rename_i hg
      simp only [gtD, Bool.or_eq_true, decide_eq_true_eq, not_or] at hg
      rw [List.pairwise_cons]
      refine ⟨fun y hy => ?_, List.pairwise_cons.2 h⟩
      rcases List.mem_cons.1 hy with rfl | hy
      · omega
      · have := h.1 y hy; omega

theorem rearrangeD_perm (hs : SortSpecD C sort) (l : List σ) : (rearrangeD C sort l).Perm l := by
  unfold rearrangeD
  split
  · split
    · exact List.Perm.swap _ _ _
    · exact List.Perm.refl _
  · split
    · exact hs.perm _
    · exact List.Perm.refl _

theorem rearrangeD_sorted (hs : SortSpecD C sort) (l : List σ) :
    (rearrangeD C sort l).Pairwise fun a b => (C.val a).1 ≤ (C.val b).1 := by
  unfold rearrangeD
  split
  · split
    · rename_i hg; simp; omega
    · rename_i hg; simp; omega
  · rename_i hl
    split
    · exact hs.sorted _
    · match l, hl with
      | [], _ => simp
      | [a], _ => simp
      | [a, b], hl => exact absurd rfl (hl a b)
      | a :: b :: c :: r, _ => rename_i h; simp at h

/-- Right after `next`. -/
structure AtD (D : DriverK C cmv (fun _ _ _ => X) keep) (s : St σ) (e : Pair) (rest : List Pair) : Prop where
  hnc : s.hnc = false
  ord : s.live.Pairwise fun a b => (C.val a).1 ≤ (C.val b).1
  srt : s.isSorted = true ∨ s.live.length ≤ 1
  v : s.v = e
  ch : ∃ c r, s.live = c :: r ∧ (C.val c).1 = e.1 ∧ ∃ ms, RemD D s.live ms ∧ IsSum ms (e :: rest)
  dead : X → ∀ d ∈ s.dead, ∀ p ∈ e :: rest, (C.val d).1 ≠ p.1

/-- Just opened or just moved. -/
structure FreshD (D : DriverK C cmv (fun _ _ _ => X) keep) (s : St σ) (out : List Pair) : Prop where
  hnc : s.hnc = true
  hn : s.hn = !s.live.isEmpty
  uns : s.live = [] ∨ (s.isSorted = false ∧ s.decreased = false)
  ch : ∃ ms, RemD D (s.live.map C.next) ms ∧ IsSum ms out
  dead : X → ∀ d ∈ s.dead, ∀ p ∈ out, (C.val d).1 ≠ p.1

theorem nextD_of_live {s : St σ} {c r ms out} (hlive : s.live = c :: r)
    (hord : (c :: r).Pairwise fun a b => (C.val a).1 ≤ (C.val b).1)
    (hrem : RemD D (c :: r) ms) (hsum : IsSum ms out)
    (hsrt : s.isSorted = true ∨ (c :: r).length ≤ 1)
    (hdead : X → ∀ d ∈ s.dead, ∀ p ∈ out, (C.val d).1 ≠ p.1) :
    ∃ e rest, out = e :: rest ∧
      AtD D { s with v := ((C.val c).1, countD C (C.val c).1 s.live), hnc := false } e rest := by
  have hle : ∀ x ∈ c :: r, (C.val c).1 ≤ (C.val x).1 := by
    intro x hx
    rcases List.mem_cons.1 hx with rfl | hx
    · exact Int.le_refl _
    · exact (List.pairwise_cons.1 hord).1 x hx
  have hmin := hrem.min hle
  have hcount := hrem.count hle
  have hmem : (C.val c).1 ∈ ms.map (·.1) := by
    cases hrem with
    | cons ha _ _ => rw [D.val ha]; simp
  obtain ⟨rest, h1⟩ := hsum.cons_of_min hmem hmin
  refine ⟨_, rest, h1, rfl, by rw [hlive]; exact hord, by rw [hlive]; exact hsrt, ?_,
    ⟨c, r, hlive, rfl, ms, by rw [hlive]; exact hrem, by rw [← h1]; exact hsum⟩, by rw [← h1]; exact hdead⟩
  simp only [hlive, hcount]

theorem moreD_fresh (hs : SortSpecD C sort) {s : St σ} {out}
    (h : FreshD D s out) (hn : (hasNextD C s).1 = true) :
    ∃ e rest, out = e :: rest ∧ AtD D (nextD C sort tie (hasNextD C s).2) e rest := by
  have e1 : hasNextD C s = (s.hn, s) := by simp only [hasNextD, h.hnc, if_true]
  rw [e1] at hn ⊢
  simp only at hn ⊢
  rw [h.hn] at hn
  cases hl : s.live with
  | nil => rw [hl] at hn; simp at hn
  | cons c r =>
    obtain ⟨ms, h1, h2⟩ := h.ch
    obtain ⟨h3, h4⟩ : s.isSorted = false ∧ s.decreased = false := by
      rcases h.uns with h3 | h3
      · rw [hl] at h3; simp at h3
      · exact h3
    rw [hl, List.map_cons] at h1
    have hadv : advanceD C s s.live = C.next c :: r.map C.next := by
      simp [advanceD, hl, h3]
    by_cases hr : r = []
    · subst hr
      have hm : mustD C s s.live = false := by simp [mustD, hl]
      have e2 : nextD C sort tie s = { s with live := [C.next c], v := ((C.val (C.next c)).1, countD C (C.val (C.next c)).1 [C.next c]), hnc := false } := by
        simp only [nextD, h.hnc, if_true, h4, hm, hadv, List.map_nil, bubbleD]
        simp
      rw [e2]
      exact nextD_of_live (s := { s with live := [C.next c] }) rfl (by simp) h1 h2 (.inr (by simp)) h.dead
    · have hm : mustD C s s.live = true := by
        cases r with
        | nil => simp at hr
        | cons x r => simp [mustD, hl, h3]
      have hp := rearrangeD_perm hs (C.next c :: r.map C.next)
      have ho := rearrangeD_sorted hs (C.next c :: r.map C.next)
      obtain ⟨ms', h5, h6⟩ := h1.perm hp.symm
      cases hq : rearrangeD C sort (C.next c :: r.map C.next) with
      | nil => rw [hq] at hp; exact absurd hp.length_eq (by simp)
      | cons c' r' =>
        have e2 : nextD C sort tie s = { s with live := c' :: r', isSorted := true, v := ((C.val c').1, countD C (C.val c').1 (c' :: r')), hnc := false } := by
          simp only [nextD, h.hnc, if_true, h4, hm, hadv, hq]
          simp
        rw [e2]
        rw [hq] at ho h5
        exact nextD_of_live (s := { s with live := c' :: r', isSorted := true }) rfl ho h5
          (h2.perm h6.symm) (.inl rfl) h.dead

/-- What `stepD` does: the children at `v` drop their value. -/
theorem stepD_ok {v : Int} {l ms} (h : RemD D l ms) (hv : ∀ c ∈ l, v ≤ (C.val c).1)
    (hord : l.Pairwise fun a b => (C.val a).1 ≤ (C.val b).1)
    (hval : ∀ c, C.val (C.hasNext c).2 = C.val c)
    (kept dead : List σ) (ok dec : Bool) {msK} (hk : RemD D (kept.map C.next) msK)
    (hkv : ∀ c ∈ kept, (C.val c).1 = v) (hok : ok = !kept.isEmpty) :
    ∃ kept' tl dead' dec', stepD C v kept dead ok dec l = (kept' ++ tl, dead', !kept'.isEmpty, dec') ∧
      (∀ c ∈ kept', (C.val c).1 = v) ∧ (∀ c ∈ tl, v < (C.val c).1) ∧
      tl.Pairwise (fun a b => (C.val a).1 ≤ (C.val b).1) ∧
      (kept ≠ [] → kept' ≠ []) ∧ (dec = true → dec' = true) ∧
      (kept' = [] → (∃ c ∈ l, (C.val c).1 = v) → dec' = true) ∧
      kept'.length + tl.length ≤ kept.length + l.length ∧
      (∃ msk mst, RemD D (kept'.map C.next) msk ∧ RemD D tl mst ∧
        (msk ++ mst).Perm (msK ++ ms.filter fun p => decide (p.1 ≠ v))) ∧
      ∀ d ∈ dead', d ∈ dead ∨ (C.val d).1 = v := by
  induction h generalizing kept dead ok dec msK with
  | nil =>
    refine ⟨kept, [], dead, dec, by simp [stepD, hok], hkv, by simp, by simp, id, id, by simp, by simp,
      ⟨msK, [], hk, .nil, by simp⟩, fun d hd => .inl hd⟩
  | cons ha hs hr ih =>
    rename_i c e rest r ms
    have hce := D.val ha
    have hvc := hv c (by simp)
    have hmono := List.pairwise_cons.1 hord
    rw [List.map_cons, List.pairwise_cons] at hs
    simp only [stepD]
    by_cases hc : (C.val c).1 = v
    · rw [if_pos hc]
      have hev : e.1 = v := by rw [← hce]; exact hc
      have hfil : (e :: rest).filter (fun p => decide (p.1 ≠ v)) = rest := by
        rw [List.filter_cons_of_neg (by simp [hev]), List.filter_eq_self]
        intro p hp
        have := hs.1 p.1 (List.mem_map.2 ⟨p, hp, rfl⟩)
        simp; omega
      rw [List.filter_append, hfil]
      cases hn : (C.hasNext c).1 with
      | true =>
        simp only [if_true]
        obtain ⟨e', rest', h1, h2⟩ := D.more (D.good ha) hn
        have hk' : RemD D ((kept ++ [(C.hasNext c).2]).map C.next) (msK ++ ((e' :: rest') ++ [])) := by
          rw [List.map_append]
          exact hk.append (.cons h2 (by rw [← h1]; exact hs.2) .nil)
        obtain ⟨kept', tl, dead', dec', h3, h4, h5, h6, h7, h8, h9, h10, ⟨msk, mst, h11, h12, h13⟩, h14⟩ :=
          ih (fun c hc => hv c (by simp [hc])) hmono.2 (kept ++ [(C.hasNext c).2]) dead true dec hk'
            (by intro x hx
                rcases List.mem_append.1 hx with hx | hx
                · exact hkv x hx
                · simp at hx; subst hx; rw [hval]; exact hc) (by simp)
        have hne := h7 (by simp)
        refine ⟨kept', tl, dead', dec', h3, h4, h5, h6, fun _ => hne, h8, fun h => absurd h hne,
          by simp at h10 ⊢; omega, ⟨msk, mst, h11, h12, h13.trans ?_⟩, h14⟩
        rw [h1]; simp
      | false =>
        simp only [Bool.false_eq_true, if_false]
        have h1 := D.done (D.good ha) hn
        subst h1
        obtain ⟨msK', hk', hkp⟩ := hk.perm ((rot_perm kept).map C.next).symm
        obtain ⟨kept', tl, dead', dec', h3, h4, h5, h6, h7, h8, h9, h10, ⟨msk, mst, h11, h12, h13⟩, h14⟩ :=
          ih (fun c hc => hv c (by simp [hc])) hmono.2 (rot kept) ((C.hasNext c).2 :: dead) ok true hk'
            (fun x hx => hkv x ((rot_perm kept).subset hx))
            (by rw [hok]; cases kept <;> simp [rot])
        refine ⟨kept', tl, dead', dec', h3, h4, h5, h6, fun h => h7 ?_, fun _ => h8 rfl, fun _ _ => h8 rfl, ?_,
          ⟨msk, mst, h11, h12, h13.trans (by simpa using hkp.append_right _)⟩, ?_⟩
        · intro h0; have := (rot_perm kept).length_eq; rw [h0] at this; cases kept with
          | nil => exact h rfl
          | cons _ _ => simp at this
        · have := (rot_perm kept).length_eq; simp; omega
        · intro d hd
          rcases h14 d hd with h15 | h15
          · rcases List.mem_cons.1 h15 with rfl | h15
            · right; rw [hval]; exact hc
            · exact .inl h15
          · exact .inr h15
    · rw [if_neg hc]
      have hgt : ∀ x ∈ c :: r, v < (C.val x).1 := by
        intro x hx
        rcases List.mem_cons.1 hx with rfl | hx
        · omega
        · have := hmono.1 x hx; omega
      have hrem : RemD D (c :: r) ((e :: rest) ++ ms) :=
        .cons ha (by rw [List.map_cons, List.pairwise_cons]; exact hs) hr
      have hfil : ((e :: rest) ++ ms).filter (fun p => decide (p.1 ≠ v)) = (e :: rest) ++ ms := by
        rw [List.filter_eq_self]
        intro p hp
        have := hrem.min (v := v + 1) (fun x hx => by have := hgt x hx; omega) p hp
        simp; omega
      refine ⟨kept, c :: r, dead, dec, by rw [hok], hkv, hgt, hord, id, id, ?_, by simp,
        ⟨msK, _, hk, hrem, by rw [hfil]⟩, fun d hd => .inl hd⟩
      rintro _ ⟨x, hx, hxv⟩
      have := hgt x hx; omega

theorem moreD_at (hs : SortSpecD C sort) {s : St σ} {e rest}
    (hval : ∀ c, C.val (C.hasNext c).2 = C.val c)
    (h : AtD D s e rest) :
    ((hasNextD C s).1 = true → ∃ e' rest', rest = e' :: rest' ∧ AtD D (nextD C sort tie (hasNextD C s).2) e' rest') ∧
    ((hasNextD C s).1 = false → rest = []) := by
  obtain ⟨c, r, hl, hc, ms, hrem, hsum⟩ := h.ch
  have hord := h.ord
  have hle : ∀ x ∈ s.live, e.1 ≤ (C.val x).1 := by
    rw [hl] at hord ⊢
    intro x hx
    rcases List.mem_cons.1 hx with rfl | hx
    · omega
    · have := (List.pairwise_cons.1 hord).1 x hx; omega
  obtain ⟨kept', tl, dead', dec', h3, h4, h5, h6, -, -, h9, h10, ⟨msk, mst, h11, h12, h13⟩, h14⟩ :=
    stepD_ok hrem hle hord hval [] s.dead false false (msK := []) .nil (by simp) rfl
  have htail := hsum.tail
  have hdec := h9
  have hexists : ∃ x ∈ s.live, (C.val x).1 = e.1 := ⟨c, by rw [hl]; simp, hc⟩
  have hdead : X → ∀ d ∈ dead', ∀ p ∈ rest, (C.val d).1 ≠ p.1 := by
    intro x d hd p hp
    rcases h14 d hd with h15 | h15
    · exact h.dead x d h15 p (by simp [hp])
    · rw [h15]
      have := hsum.1
      rw [List.map_cons, List.pairwise_cons] at this
      have := this.1 p.1 (List.mem_map.2 ⟨p, hp, rfl⟩)
      omega
  rw [List.nil_append] at h13
  have hsum' := htail.perm h13.symm
  rw [← h.v] at h3
  have e1 : hasNextD C s = (!(kept' ++ tl).isEmpty, { s with live := kept' ++ tl, dead := dead', decreased := dec' && kept'.isEmpty, hn := !(kept' ++ tl).isEmpty, hnc := true }) := by
    simp only [hasNextD, h.hnc, Bool.false_eq_true, if_false, h3, Bool.not_not]
  rw [e1]
  simp only
  constructor
  · intro hn
    cases hk : kept' with
    | nil =>
      subst hk
      rw [hdec rfl hexists]
      cases htl : tl with
      | nil => rw [htl] at hn; simp at hn
      | cons c' r' =>
        subst htl
        have e2 : nextD C sort tie { s with live := [] ++ c' :: r', dead := dead', decreased := true && ([] : List σ).isEmpty, hn := !([] ++ c' :: r').isEmpty, hnc := true }
          = { s with live := c' :: r', dead := dead', decreased := true, hn := true, v := ((C.val c').1, countD C (C.val c').1 (c' :: r')), hnc := false } := by
          simp [nextD]
        rw [e2]
        have hm : RemD D (c' :: r') mst := h12
        have hp : msk = [] := by cases h11; rfl
        subst hp
        refine nextD_of_live (s := { s with live := c' :: r', dead := dead', decreased := true, hn := true }) rfl h6 hm (by simpa using hsum') ?_ hdead
        rcases h.srt with h7 | h7
        · exact .inl h7
        · right; simp only [List.length_nil, Nat.zero_add] at h10; exact Nat.le_trans h10 h7
    | cons k0 kr =>
      have hdec' : (dec' && kept'.isEmpty) = false := by rw [hk]; simp
      rw [← hk, hdec']
      -- the children after the advance
      have hadv : ∀ S : St σ, S.isSorted = s.isSorted → S.v = s.v → advanceD C S (kept' ++ tl) = kept'.map C.next ++ tl := by
        intro S hS1 hS2
        rw [hk, List.cons_append]
        simp only [advanceD, List.map_cons, List.cons_append, List.map_append]
        congr 1
        rcases h.srt with h7 | h7
        · congr 1
          · apply List.map_congr_left
            intro x hx
            rw [hS2, h.v, h4 x (by rw [hk]; simp [hx])]; simp
          · conv => rhs; rw [← List.map_id tl]
            apply List.map_congr_left
            intro x hx
            have := h5 x hx
            rw [hS1, hS2, h.v, h7]
            simp; omega
        · rw [hk] at h10
          simp only [List.length_cons, List.length_nil] at h10
          have h8 : kr = [] := List.length_eq_zero_iff.1 (by omega)
          have h9 : tl = [] := List.length_eq_zero_iff.1 (by omega)
          subst h8; subst h9; rfl
      have hrem' : RemD D (kept'.map C.next ++ tl) (msk ++ mst) := h11.append h12
      generalize hS : ({ s with live := kept' ++ tl, dead := dead', decreased := false, hn := !(kept' ++ tl).isEmpty, hnc := true } : St σ) = S
      have ha := hadv S (by rw [← hS]) (by rw [← hS])
      have hSl : S.live = kept' ++ tl := by rw [← hS]
      have hSh : S.hnc = true := by rw [← hS]
      have hSd : S.decreased = false := by rw [← hS]
      have hSde : S.dead = dead' := by rw [← hS]
      have hSs : S.isSorted = s.isSorted := by rw [← hS]
      by_cases hm : mustD C S S.live = true
      · have hp := rearrangeD_perm hs (kept'.map C.next ++ tl)
        have ho := rearrangeD_sorted hs (kept'.map C.next ++ tl)
        obtain ⟨ms', h15, h16⟩ := hrem'.perm hp.symm
        cases hq : rearrangeD C sort (kept'.map C.next ++ tl) with
        | nil => rw [hq] at hp; have := hp.length_eq; rw [hk] at this; simp at this
        | cons c' r' =>
          have e2 : nextD C sort tie S = { S with live := c' :: r', isSorted := true, v := ((C.val c').1, countD C (C.val c').1 (c' :: r')), hnc := false } := by
            simp only [nextD, hSh, if_true, hSd, Bool.false_eq_true, if_false, hm]
            rw [hSl, ha, hq]
          rw [e2]
          rw [hq] at ho h15
          exact nextD_of_live (s := { S with live := c' :: r', isSorted := true }) rfl ho h15
            (hsum'.perm h16.symm) (.inl rfl) (by rw [← hSde] at hdead; exact hdead)
      · have hm' : mustD C S S.live = false := by simpa using hm
        -- only the last child was advanced
        have hkr : kr = [] := by
          cases kr with
          | nil => rfl
          | cons k1 kr =>
            have : (C.val k1).1 = e.1 := h4 k1 (by rw [hk]; simp)
            rw [hSl, hk] at hm'
            simp only [mustD, List.cons_append, List.any_cons, Bool.or_eq_false_iff] at hm'
            have h1 := hm'.1.2
            rw [← hS] at h1
            simp only [h.v, this] at h1
            simp at h1
        subst hkr
        have hp := bubbleD_perm (C := C) (tie := tie) (C.next k0) tl
        have ho := bubbleD_sorted (C := C) (tie := tie) (C.next k0) tl h6
        rw [hk] at hrem'
        obtain ⟨ms', h15, h16⟩ := hrem'.perm hp.symm
        cases hq : bubbleD C tie (C.next k0) tl with
        | nil => rw [hq] at hp; exact absurd hp.length_eq (by simp)
        | cons c' r' =>
          have e2 : nextD C sort tie S = { S with live := c' :: r', v := ((C.val c').1, countD C (C.val c').1 (c' :: r')), hnc := false } := by
            simp only [nextD, hSh, if_true, hSd, Bool.false_eq_true, if_false, hm']
            rw [hSl, ha, hk]
            simp only [List.map_cons, List.map_nil, List.cons_append, List.nil_append, hq]
          rw [e2]
          rw [hq] at ho h15
          refine nextD_of_live (s := { S with live := c' :: r' }) rfl ho h15
            (hsum'.perm h16.symm) ?_ (by rw [← hSde] at hdead; exact hdead)
          have hlen := hp.length_eq
          rw [hq] at hlen
          rw [hk] at h10
          simp only [List.length_cons, List.length_nil] at h10 hlen ⊢
          rcases h.srt with h7 | h7
          · left; show S.isSorted = true; rw [hSs]; exact h7
          · right; omega
  · intro hn
    have : kept' = [] ∧ tl = [] := by simpa using hn
    obtain ⟨h15, h16⟩ := this
    subst h15; subst h16
    cases h11; cases h12
    exact hsum'.nil

theorem doneD_fresh {s : St σ} {out} (h : FreshD D s out) (hn : (hasNextD C s).1 = false) :
    out = [] := by
  simp only [hasNextD, h.hnc, if_true, h.hn] at hn
  obtain ⟨ms, h1, h2⟩ := h.ch
  have : s.live = [] := by simpa using hn
  rw [this] at h1
  cases h1
  exact h2.nil

theorem seekLoopD_ok (x : X) (c1 c2 : Int)
    (hfail : ∀ {c e rest}, D.At c e rest → (C.hasNext (cmv c1 c2 c)).1 = false →
      (C.val (C.hasNext (cmv c1 c2 c)).2).1 < c1)
    {live ms} (h : RemD D live ms) (kept dead : List σ) {msK} (hk : RemD D (kept.map C.next) msK) :
    (∃ ms', RemD D ((seekLoop C cmv c1 c2 kept dead live).1.map C.next) ms' ∧
      ms'.Perm (msK ++ ms.filter (keep c1 c2))) ∧
    ∀ d ∈ (seekLoop C cmv c1 c2 kept dead live).2, d ∈ dead ∨ (C.val d).1 < c1 := by
  induction h generalizing kept dead msK with
  | nil => exact ⟨⟨msK, hk, by simp⟩, fun d hd => .inl hd⟩
  | cons ha hs hr ih =>
    rename_i c e rest r ms
    have hg := D.seek ha c1 c2 x
    simp only [seekLoop]
    cases hn : (C.hasNext (cmv c1 c2 c)).1 with
    | true =>
      simp only [if_true]
      obtain ⟨e', rest', h1, h2⟩ := D.more hg hn
      have hs' : ((e' :: rest').map (·.1)).Pairwise (· < ·) := by
        rw [← h1]; exact List.Pairwise.sublist (List.filter_sublist.map _) hs
      have hk' : RemD D ((kept ++ [(C.hasNext (cmv c1 c2 c)).2]).map C.next) (msK ++ ((e' :: rest') ++ [])) := by
        rw [List.map_append]
        exact hk.append (.cons h2 hs' .nil)
      obtain ⟨⟨ms', h3, h4⟩, h5⟩ := ih _ dead hk'
      refine ⟨⟨ms', h3, h4.trans ?_⟩, h5⟩
      rw [List.append_nil, List.filter_append, h1, List.append_assoc]
    | false =>
      simp only [Bool.false_eq_true, if_false]
      have h1 := D.done hg hn
      obtain ⟨msK', hk', hkp⟩ := hk.perm ((rot_perm kept).map C.next).symm
      obtain ⟨⟨ms', h3, h4⟩, h5⟩ := ih (rot kept) ((C.hasNext (cmv c1 c2 c)).2 :: dead) hk'
      refine ⟨⟨ms', h3, h4.trans ?_⟩, fun d hd => ?_⟩
      · rw [List.filter_append, h1, List.nil_append]
        exact hkp.append_right _
      · rcases h5 d hd with h6 | h6
        · rcases List.mem_cons.1 h6 with rfl | h6
          · exact .inr (hfail ha hn)
          · exact .inl h6
        · exact .inr h6

theorem reconsiderD_nop {e : Int} {live dead : List σ} (h : ∀ d ∈ dead, (C.val d).1 ≠ e) :
    reconsiderD C e live dead = (live, dead) := by
  cases dead with
  | nil => rfl
  | cons d r => simp [reconsiderD, h d (by simp)]

theorem IsSum.filter {ms out} (h : IsSum ms out) (c : Int) :
    IsSum (ms.filter fun p => decide (c ≤ p.1)) (out.filter fun p => decide (c ≤ p.1)) := by
  obtain ⟨h1, h2, h3⟩ := h
  refine ⟨List.Pairwise.sublist (List.filter_sublist.map _) h1, fun v => ?_, fun q hq => ?_⟩
  · constructor
    · intro hv
      obtain ⟨q, hq, rfl⟩ := List.mem_map.1 hv
      obtain ⟨h4, h5⟩ := List.mem_filter.1 hq
      obtain ⟨p, hp, hpe⟩ := List.mem_map.1 ((h2 q.1).1 (List.mem_map.2 ⟨q, h4, rfl⟩))
      exact List.mem_map.2 ⟨p, List.mem_filter.2 ⟨hp, by rw [hpe]; exact h5⟩, hpe⟩
    · intro hv
      obtain ⟨q, hq, rfl⟩ := List.mem_map.1 hv
      obtain ⟨h4, h5⟩ := List.mem_filter.1 hq
      obtain ⟨p, hp, hpe⟩ := List.mem_map.1 ((h2 q.1).2 (List.mem_map.2 ⟨q, h4, rfl⟩))
      exact List.mem_map.2 ⟨p, List.mem_filter.2 ⟨hp, by rw [hpe]; exact h5⟩, hpe⟩
  · obtain ⟨h4, h5⟩ := List.mem_filter.1 hq
    rw [h3 q h4, List.filter_filter]
    congr 2
    apply List.filter_congr
    intro p _
    by_cases hp : p.1 = q.1
    · simp [hp]; simpa using h5
    · simp [hp]

theorem seekD_at {D : DriverK C cmv (fun _ _ _ => X) fun c1 _ p => decide (c1 ≤ p.1)}
    (x : X) {s : St σ} {e rest}
    (hfail : ∀ {c e rest}, D.At c e rest → ∀ c1 c2, (C.hasNext (cmv c1 c2 c)).1 = false →
      (C.val (C.hasNext (cmv c1 c2 c)).2).1 < c1)
    (h : AtD D s e rest) (c1 c2 : Int) :
    FreshD D (movetoD C cmv c1 c2 s) ((e :: rest).filter fun p => decide (c1 ≤ p.1)) := by
  obtain ⟨c, r, hl, -, ms, hrem, hsum⟩ := h.ch
  have hre : (if s.v.1 = c1 && !s.live.isEmpty then reconsiderD C c1 s.live s.dead
    else (s.live, s.dead)) = (s.live, s.dead) := by
    split
    · rename_i hv
      simp only [Bool.and_eq_true, decide_eq_true_eq] at hv
      rw [h.v] at hv
      apply reconsiderD_nop
      intro d hd; rw [← hv.1]; exact h.dead x d hd e (by simp)
    · rfl
  obtain ⟨⟨ms', h1, h2⟩, h3⟩ := seekLoopD_ok x c1 c2 (fun ha hn => hfail ha c1 c2 hn) hrem [] s.dead
    (msK := []) (by exact .nil)
  refine ⟨by simp [movetoD], rfl, ?_, ?_, ?_⟩
  · simp only [movetoD, hre]; right; simp [hl]
  · simp only [movetoD, hre]
    exact ⟨ms', h1, (IsSum.filter hsum c1).perm (by simpa using h2.symm)⟩
  · intro _ d hd p hp
    simp only [movetoD, hre] at hd
    rw [List.mem_filter] at hp
    rcases h3 d hd with h4 | h4
    · exact h.dead x d h4 p hp.1
    · have := hp.2; simp at this; omega

/-- The device for the merge in distinct mode. -/
def driverD (hs : SortSpecD C sort)
    (D : DriverK C cmv (fun _ _ _ => X) fun c1 _ p => decide (c1 ≤ p.1))
    (hval : ∀ c, C.val (C.hasNext c).2 = C.val c)
    (hfail : X → ∀ {c e rest}, D.At c e rest → ∀ c1 c2, (C.hasNext (cmv c1 c2 c)).1 = false →
      (C.val (C.hasNext (cmv c1 c2 c)).2).1 < c1) :
    DriverK (itrD C sort tie) (movetoD C cmv) (fun _ _ _ => X) fun c1 _ p => decide (c1 ≤ p.1) where
  Good s out := FreshD D s out ∨ ∃ e, AtD D s e out
  At s e rest := AtD D s e rest
  more := by
    intro s out h hn
    rcases h with h | ⟨e, h⟩
    · exact moreD_fresh hs h hn
    · exact (moreD_at hs hval h).1 hn
  done := by
    intro s out h hn
    rcases h with h | ⟨e, h⟩
    · exact doneD_fresh h hn
    · exact (moreD_at (tie := tie) hs hval h).2 hn
  val h := h.v
  good h := .inr ⟨_, h⟩
  suffix h c1 c2 _ := by
    obtain ⟨c, r, _, _, ms, _, hsum⟩ := h.ch
    exact filter_ge_suffixD (List.pairwise_map.1 hsum.1) c1
  seek h c1 c2 x := .inl (seekD_at x (hfail x) h c1 c2)

/-- Opening the merge in distinct mode on children for which `hasNext` was called and returned true. -/
theorem good_initD (xs : List (σ × List Pair))
    (h : ∀ y ∈ xs, D.Good y.1 y.2 ∧ (C.hasNext y.1).1 = true ∧ (y.2.map (·.1)).Pairwise (· < ·)) {out}
    (hout : IsSum (xs.map (·.2)).flatten out) :
    FreshD D (init (xs.map fun y => (C.hasNext y.1).2)) out := by
  have key : ∃ ms, RemD D ((xs.map fun y => (C.hasNext y.1).2).map C.next) ms ∧
      (xs.map (·.2)).flatten.Perm ms := by
    clear hout
    induction xs with
    | nil => exact ⟨[], .nil, by simp⟩
    | cons y xs ih =>
      obtain ⟨ms, h1, h2⟩ := ih (fun z hz => h z (by simp [hz]))
      obtain ⟨h3, h4, h5⟩ := h y (by simp)
      obtain ⟨e, rest, h6, h7⟩ := D.more h3 h4
      refine ⟨_, .cons h7 (by rw [← h6]; exact h5) h1, ?_⟩
      simp only [List.map_cons, List.flatten_cons, h6]
      exact h2.append_left _
  obtain ⟨ms, h1, h2⟩ := key
  obtain ⟨ms', h3, h4⟩ := h1.perm ((List.reverse_perm _).map C.next).symm
  refine ⟨rfl, ?_, .inr ⟨rfl, rfl⟩, ⟨ms', h3, hout.perm (h2.trans h4.symm)⟩, ?_⟩
  · simp [init]
  · intro _ d hd; simp [init] at hd

end Composite
end Trident
