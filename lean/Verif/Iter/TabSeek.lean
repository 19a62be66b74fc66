import Verif.Iter.Concrete
/-! Helper lemmas: seeks on tables as children of a merge (no property statements here). -/
namespace Trident

/-- With correct seeks, a seek that finds nothing is to a target above the current element. -/
theorem failBelow_of_seekOK {σ : Type} {I : Itr σ Pair} {mv : Int → Int → σ → σ} {s0 : σ} {ps : List Pair}
    (hok : SeekOK I mv s0 ps)
    (h : ∀ s, Reached I mv s0 s → ∀ c1 c2, Pair.lt (I.val s) (c1, c2) → (I.hasNext (mv c1 c2 s)).1 = false →
      Pair.lt (I.val (I.hasNext (mv c1 c2 s)).2) (c1, c2)) : FailBelow I mv s0 := by
  intro s hr c1 c2 hn
  refine h s hr c1 c2 ?_ hn
  obtain ⟨pre, rest, h1, h2, h3⟩ := hok s hr
  have := (h3 c1 c2).unique (.done hn)
  apply Classical.byContradiction
  intro hlt
  rw [Pair.not_lt] at hlt
  rw [List.filter_cons_of_pos (by simpa using hlt)] at this
  simp at this

/-! ## Row -/

theorem Row.moveto_val {w1 w2 : Width} {m : Mem} (c1 c2 : Int) (s : Row.St) :
    (Row.itr w1 w2 m).val (Row.moveto w1 w2 m c1 c2 s) = (Row.itr w1 w2 m).val s := by
  unfold Row.moveto
  simp only
  (repeat' split) <;> rfl

theorem Row.failBelow {w1 w2 : Width} {m : Mem} {s0 : Row.St} {ps : List Pair}
    (hok : SeekOK (Row.itr w1 w2 m) (Row.moveto w1 w2 m) s0 ps) :
    FailBelow (Row.itr w1 w2 m) (Row.moveto w1 w2 m) s0 :=
  failBelow_of_seekOK hok fun s _ c1 c2 hlt _ => by
    change Pair.lt ((Row.itr w1 w2 m).val (Row.moveto w1 w2 m c1 c2 s)) (c1, c2)
    rw [Row.moveto_val]; exact hlt

/-! ## Cluster -/

theorem Cluster.movetoSecond_val {w1 w2 wc : Width} {m : Mem} (c2 : Int) (s : Cluster.St) :
    (Cluster.itr w1 w2 wc m).val (Cluster.movetoSecond w1 w2 wc m c2 s) =
      (Cluster.itr w1 w2 wc m).val (if s.countgroup = 0 then Cluster.next w1 w2 wc m s else s) := by
  unfold Cluster.movetoSecond
  simp only
  generalize (if s.countgroup = 0 then Cluster.next w1 w2 wc m s else s) = t
  split <;> rfl

theorem Cluster.failBelow {w1 w2 wc : Width} {m : Mem} {s0 : Cluster.St} {ps : List Pair}
    (h0 : Cluster.Good w1 w2 wc m s0 ps) :
    FailBelow (Cluster.itr w1 w2 wc m) (Cluster.moveto w1 w2 wc m) s0 := by
  refine failBelow_of_seekOK h0.seekOK fun s hr c1 c2 hlt hn => ?_
  obtain ⟨pre, k, v, vs, gs, hat, hgs, -⟩ := Cluster.reached_at h0 hr
  change Cluster.hasNext (Cluster.moveto w1 w2 wc m c1 c2 s) = false at hn
  change Pair.lt ((Cluster.itr w1 w2 wc m).val (Cluster.moveto w1 w2 wc m c1 c2 s)) (c1, c2)
  have hval : (Cluster.itr w1 w2 wc m).val s = (k, v) := Prod.ext hat.v1 hat.v2
  rw [hval] at hlt
  have hv1 := hat.v1
  have hv2 := hat.v2
  unfold Cluster.moveto at hn ⊢
  by_cases hA : Cluster.hasNext s = false ∧ (c1 > s.v1 ∨ (s.ign = false ∧ s.v1 = c1 ∧ c2 > s.v2))
  · rw [if_pos hA, hval]; exact hlt
  · rw [if_neg hA] at hn ⊢
    by_cases hB : c1 > s.v1
    · simp only [if_pos hB, hat.ign, Bool.false_eq_true, if_false] at hn ⊢
      have hcur : (if s.count ≠ 0 ∧ True then s.current + w2.size * s.count.toNat else s.current)
          = s.current + vs.length * w2.size := by
        have hc := hat.count
        by_cases h0 : vs = []
        · subst h0; simp at hc; simp [hc]
        · have : s.count ≠ 0 := by
            rw [hc]; intro hx; apply h0; exact List.eq_nil_of_length_eq_zero (by omega)
          rw [if_pos ⟨this, trivial⟩, hc, Int.toNat_natCast, Nat.mul_comm]
      rw [hcur] at hn ⊢
      rw [hat.stop] at hn ⊢
      obtain ⟨gs1, gs2, -, -, hpos, hgat, hterm⟩ := Cluster.skip_spec hat.grps c1 s.v1 hB
      generalize Cluster.skip w1 w2 wc m c1 (s.current + vs.length * w2.size)
        (s.current + vs.length * w2.size + Cluster.gszs w1 w2 wc gs) s.v1 = sk at *
      by_cases hk : sk.2 = c1
      · simp only [if_pos hk] at hn ⊢
        cases gs2 with
        | nil => simp only at hterm; omega
        | cons g gs3 =>
          obtain ⟨hr1, hr2, hr3, hr4, hr5⟩ := hgat
          simp only [Cluster.gszs, Cluster.gsz] at hpos
          have hlen : 0 < g.2.length := List.length_pos_iff.2 hr4
          have h2 := w2.size_pos
          have hmul : w2.size ≤ g.2.length * w2.size := Nat.le_mul_of_pos_left _ hlen
          rw [Cluster.movetoSecond_val]
          simp only [if_true]
          unfold Cluster.movetoSecond at hn
          simp only [if_true] at hn
          simp only [Cluster.next, hr1] at hn ⊢
          change Pair.lt (g.1, _) (c1, c2)
          simp only [Pair.lt]
          right
          refine ⟨by simp only at hterm; omega, ?_⟩
          apply Classical.byContradiction
          intro hge
          have hge' : c2 ≤ w2.read m (sk.1 + w1.size + wc.size) := Int.not_lt.1 hge
          simp only [Bool.false_eq_true, if_false, show ¬ ((0 : Int) > 0) from by omega, if_pos hge',
            Cluster.hasNext, decide_eq_false_iff_not] at hn
          omega
      · rw [if_neg hk] at hn ⊢
        simp only [if_true] at hn ⊢
        change Pair.lt (s.v1, -1) (c1, c2)
        unfold Pair.lt; simp only; omega
    · simp only [if_neg hB, hat.ign, Bool.false_eq_true, if_false] at hn ⊢
      unfold Pair.lt at hlt
      simp only at hlt
      have hC : s.v1 = c1 := by omega
      rw [if_pos hC]
      rw [Cluster.movetoSecond_val, if_neg hat.cg, hval]
      unfold Pair.lt; simp only; omega

/-! ## Column -/

theorem Column.bsearch_found {rd : Nat → Int} {B : Nat} {c : Int} {s e : Nat}
    (h : (Column.bsearch rd B c s e).2 = true) :
    rd (Column.bsearch rd B c s e).1 = c ∧ (Column.bsearch rd B c s e).1 < e := by
  fun_induction Column.bsearch rd B c s e with
  | case1 s e hlt mid h1 ih => exact ih h
  | case2 s e hlt mid h1 h2 ih =>
    obtain ⟨g1, g2⟩ := ih h
    refine ⟨g1, ?_⟩
    have : mid ≤ e := by
      have h1 := Nat.div_mul_le_self (e - s) B
      have h2 : (e - s) / B / 2 * B ≤ (e - s) / B * B := Nat.mul_le_mul_right _ (Nat.div_le_self _ _)
      show s + (e - s) / B / 2 * B ≤ e
      omega
    omega
  | case3 s e hlt mid h1 h2 =>
    refine ⟨?_, ?_⟩
    · show rd mid = c
      omega
    · have h1 := Nat.div_mul_le_self (e - s) B
      have h2 : (e - s) / B / 2 * B ≤ (e - s) / B * B / 2 := by
        rw [Nat.le_div_iff_mul_le (by omega)]
        have : (e - s) / B / 2 * 2 ≤ (e - s) / B := Nat.div_mul_le_self _ _
        calc (e - s) / B / 2 * B * 2 = (e - s) / B / 2 * 2 * B := by rw [Nat.mul_right_comm]
          _ ≤ _ := Nat.mul_le_mul_right _ this
      show s + (e - s) / B / 2 * B < e
      omega
  | case4 s e hlt => simp at h

theorem Column.secondTail_val {m : Mem} (c2 : Int) (s : Column.St) :
    (Column.secondTail m c2 s).v1 = s.v1 ∧ ((Column.secondTail m c2 s).v2 = s.v2 ∨ (Column.secondTail m c2 s).v2 = 0) := by
  unfold Column.secondTail
  simp only
  (repeat' split) <;> simp

theorem Column.failBelow {m : Mem} {s0 : Column.St} {ps : List Pair} (hpos : ∀ p ∈ ps, 0 ≤ p.1 ∧ 0 ≤ p.2)
    (hign : s0.ign = false)
    (hok : SeekOK (Column.itr m) (Column.moveto m) s0 ps) :
    FailBelow (Column.itr m) (Column.moveto m) s0 := by
  refine failBelow_of_seekOK hok fun s hr c1 c2 hlt hn => ?_
  have higns : s.ign = false := by
    clear hn hlt
    have hnx : ∀ s : Column.St, (Column.next m s).ign = s.ign := fun s => by
      unfold Column.next; simp only
      (repeat' split) <;> simp [Column.readBlock]
    have hm : ∀ (c1 c2 : Int) (s : Column.St), (Column.moveto m c1 c2 s).ign = s.ign := fun c1 c2 s => by
      have := Column.moveto_fixed (m := m) c1 c2 s
      simp only [Column.fixedPart, Prod.mk.injEq] at this
      simp only [this]
    induction hr with
    | first _ => exact (hnx _).trans hign
    | next _ _ ih => exact (hnx _).trans ih
    | seek c1 c2 _ _ ih => exact (hnx _).trans ((hm _ _ _).trans ih)
  obtain ⟨pre, rest, h1, h2, h3⟩ := hok s hr
  have hs0 := hpos ((Column.itr m).val s) (by rw [h1]; simp)
  have hempty : ∀ p ∈ (Column.itr m).val s :: rest, ¬ Pair.le (c1, c2) p := by
    have := (h3 c1 c2).unique (.done hn)
    rw [List.filter_eq_nil_iff] at this
    intro p hp; simpa using this p hp
  change Pair.lt (s.v1, s.v2) (c1, c2) at hlt
  change 0 ≤ s.v1 ∧ 0 ≤ s.v2 at hs0
  change Pair.lt ((Column.moveto m c1 c2 s).v1, (Column.moveto m c1 c2 s).v2) (c1, c2)
  unfold Column.moveto
  by_cases hA : Column.hasNext s = false ∧ (c1 > s.v1 ∨ (s.ign = false ∧ c1 = s.v1 ∧ c2 > s.v2))
  · rw [if_pos hA]; exact hlt
  · rw [if_neg hA]
    by_cases hB : c1 > s.v1
    · simp only [if_pos hB]
      have hmf : (Column.movetoFirst m c1 s).1.v1 = s.v1 ∧ (Column.movetoFirst m c1 s).1.v2 = -1 ∧
          (Column.movetoFirst m c1 s).1.ign = false := by
        unfold Column.movetoFirst Column.atBlock
        simp only
        (repeat' split) <;> simp [higns]
      rw [hmf.2.2]
      simp only [Bool.false_eq_true, if_false]
      by_cases hf : (Column.movetoFirst m c1 s).2 = true ∧ c2 > (Column.movetoFirst m c1 s).1.v2
      · rw [if_pos hf]
        have hfound : (Column.bsearch (rdN s.b1 m) s.blk c1 s.pos1 s.startpos2).2 = true := hf.1
        obtain ⟨g1, g2⟩ := Column.bsearch_found hfound
        have hrb : (Column.readBlock m (Column.movetoFirst m c1 s).1).v1 = c1 ∧
            (Column.readBlock m (Column.movetoFirst m c1 s).1).v2 = -1 := by
          unfold Column.readBlock Column.movetoFirst Column.atBlock
          simp only [hfound, if_true]
          exact ⟨g1, trivial⟩
        unfold Column.movetoSecond
        rw [if_pos hmf.2.1]
        obtain ⟨q1, q2⟩ := Column.secondTail_val (m := m) c2 (Column.readBlock m (Column.movetoFirst m c1 s).1)
        rw [hrb.1] at q1
        rw [hrb.2] at q2
        simp only [Pair.lt]
        right
        refine ⟨q1, ?_⟩
        have hc2 := hf.2
        rw [hmf.2.1] at hc2
        -- there is an element with first value `c1`
        have hel : ∃ x, (c1, x) ∈ rest := by
          have hy := h3 c1 (-1)
          have hmv : Column.moveto m c1 (-1) s = (Column.movetoFirst m c1 s).1 := by
            unfold Column.moveto
            have hA' : ¬ (Column.hasNext s = false ∧ (c1 > s.v1 ∨ (s.ign = false ∧ c1 = s.v1 ∧ (-1) > s.v2))) := by
              intro hc; apply hA; refine ⟨hc.1, Or.inl hB⟩
            rw [if_neg hA']
            simp only [if_pos hB]
            rw [hmf.2.2]
            simp [hmf.2.1]
          rw [hmv] at hy
          have hnx : ((Column.itr m).hasNext (Column.movetoFirst m c1 s).1).1 = true := by
            change Column.hasNext _ = true
            unfold Column.hasNext Column.movetoFirst Column.atBlock
            simp only [hfound, if_true]
            simp [g2]
          generalize hL : ((Column.itr m).val s :: rest).filter (fun p => decide (Pair.le (c1, -1) p)) = L at hy
          cases L with
          | nil => rw [yields_nil, hnx] at hy; simp at hy
          | cons p L =>
            rw [yields_cons] at hy
            have hp1 : p.1 = c1 := by
              rw [← hy.2.1]
              change (Column.next m (Column.movetoFirst m c1 s).1).v1 = c1
              unfold Column.next
              have hig := hmf.2.2
              have hsc : ((Column.movetoFirst m c1 s).1.scanned == (Column.movetoFirst m c1 s).1.count) = true := by
                unfold Column.movetoFirst Column.atBlock
                simp only [hfound, if_true]
                rfl
              simp only [hsc, Bool.or_true, if_true]
              have : (Column.readBlock m (Column.movetoFirst m c1 s).1).ign = false := hig
              simp only [this, Bool.false_eq_true, if_false]
              exact hrb.1
            have hpm : p ∈ (Column.itr m).val s :: rest := by
              have : p ∈ ((Column.itr m).val s :: rest).filter (fun p => decide (Pair.le (c1, -1) p)) := by rw [hL]; simp
              exact (List.mem_filter.1 this).1
            rcases List.mem_cons.1 hpm with hp | hp
            · exfalso
              have : p.1 = s.v1 := by rw [hp]; rfl
              omega
            · exact ⟨p.2, by rw [← hp1]; exact hp⟩
        obtain ⟨x, hx⟩ := hel
        have hx0 := (hpos (c1, x) (by rw [h1]; simp [hx])).2
        have := hempty (c1, x) (by simp [hx])
        have hxc : x < c2 := Int.not_le.1 fun hle => this (Or.inr ⟨rfl, hle⟩)
        have hx0' : (0 : Int) ≤ x := hx0
        show (Column.secondTail m c2 (Column.readBlock m (Column.movetoFirst m c1 s).1)).v2 < c2
        omega
      · rw [if_neg hf]
        rw [if_neg (by rw [hmf.2.1]; simp)]
        rw [hmf.1]
        unfold Pair.lt; simp only; omega
    · simp only [if_neg hB, higns, Bool.false_eq_true, if_false]
      unfold Pair.lt at hlt
      simp only at hlt
      have hC : c1 = s.v1 ∧ c2 > s.v2 := by omega
      rw [if_pos ⟨by simp [hC.1], hC.2⟩]
      unfold Column.movetoSecond
      rw [if_neg (by omega)]
      obtain ⟨q1, q2⟩ := Column.secondTail_val (m := m) c2 s
      unfold Pair.lt
      simp only
      omega

/-! ## From table classes to objects -/

section
variable {τ : Type} {J : Itr τ Pair} {nv : Int → Int → τ → τ} {m : Mem} (f : τ → Strat.Tab)
  (hh : ∀ s, (Strat.Tab.itr m).hasNext (f s) = ((J.hasNext s).1, f (J.hasNext s).2))
  (hn : ∀ s, (Strat.Tab.itr m).next (f s) = f (J.next s)) (hv : ∀ s, (Strat.Tab.itr m).val (f s) = J.val s)
  (hm : ∀ c1 c2 s, Strat.Tab.mv m c1 c2 (f s) = f (nv c1 c2 s))
include hh hn hv hm

theorem tab_reached {s0 : τ} {t : Strat.Tab} (h : Reached (Strat.Tab.itr m) (Strat.Tab.mv m) (f s0) t) :
    ∃ s, t = f s ∧ Reached J nv s0 s := by
  induction h with
  | first h => exact ⟨_, by rw [hh, hn], .first (by rw [hh] at h; exact h)⟩
  | next _ h ih =>
    obtain ⟨s, rfl, h1⟩ := ih
    exact ⟨_, by rw [hh, hn], .next h1 (by rw [hh] at h; exact h)⟩
  | seek c1 c2 _ h ih =>
    obtain ⟨s, rfl, h1⟩ := ih
    exact ⟨_, by rw [hm, hh, hn], .seek c1 c2 h1 (by rw [hm, hh] at h; exact h)⟩

theorem tab_yields {s : τ} {l} (h : Yields J s l) : Yields (Strat.Tab.itr m) (f s) l := by
  induction l generalizing s with
  | nil => rw [yields_nil] at h ⊢; rw [hh]; exact h
  | cons p l ih =>
    rw [yields_cons] at h ⊢
    rw [hh, hn, hv]
    exact ⟨h.1, h.2.1, ih h.2.2⟩

theorem tab_seekOK {s0 : τ} {l} (h : SeekOK J nv s0 l) : SeekOK (Strat.Tab.itr m) (Strat.Tab.mv m) (f s0) l := by
  intro t ht
  obtain ⟨s, rfl, h1⟩ := tab_reached f hh hn hv hm ht
  obtain ⟨pre, rest, h2, h3, h4⟩ := h s h1
  rw [hv]
  exact ⟨pre, rest, h2, tab_yields f hh hn hv hm h3, fun c1 c2 => by rw [hm]; exact tab_yields f hh hn hv hm (h4 c1 c2)⟩

theorem tab_failBelow {s0 : τ} (h : FailBelow J nv s0) : FailBelow (Strat.Tab.itr m) (Strat.Tab.mv m) (f s0) := by
  intro t ht c1 c2 hx
  obtain ⟨s, rfl, h1⟩ := tab_reached f hh hn hv hm ht
  rw [hm, hh] at hx ⊢
  rw [hv]
  exact h s h1 c1 c2 hx

end

/-! ## Sortedness of what an open table returns -/

theorem Row.Range.sorted {w1 w2 : Width} {a : Nat} {ps : List Pair} {s : Row.St} {l : List Pair}
    (h : Row.Range w1 w2 a ps s l) (hs : Sorted ps) : Sorted l := by
  obtain ⟨i, j, -, -, -, rfl⟩ := h
  exact List.Pairwise.sublist ((List.drop_sublist _ _).trans (List.take_sublist _ _)) hs

theorem Cluster.Good.sorted {w1 w2 wc : Width} {m : Mem} {s : Cluster.St} {l : List Pair}
    (h : Cluster.Good w1 w2 wc m s l) : Sorted l := by
  rcases h with ⟨k, vs, gs, -, -, h3, h4, rfl⟩ | ⟨-, rfl⟩
  · by_cases hv : vs = []
    · subst hv
      simpa [Cluster.rem] using h4.sortedS.sorted
    · have := (h3 hv).sortedS.sorted
      simpa [ungroup, Cluster.rem] using this
  · simp [Sorted]

theorem Column.setupC12_ign {m : Mem} {c1 c2 : Int} {a e : Nat} : (Column.setupC12 m c1 c2 a e).ign = false := by
  have hn : ∀ s, (Column.next m s).ign = s.ign := fun s => congrArg (·.2.2.2.2.2.2.2.2.2.1) (Column.next_fixed (m := m) s)
  have hm : ∀ s, (Column.moveto m c1 c2 s).ign = s.ign := fun s =>
    congrArg (·.2.2.2.2.2.2.2.2.2.1) (Column.moveto_fixed (m := m) c1 c2 s)
  have h0 : (Column.setup m a e).ign = false := rfl
  unfold Column.setupC12
  simp only [Column.fail]
  (repeat' split) <;> simp [hn, hm, h0]

/-- A memory holding the bytes at address 0. -/
def memOf (bs : List UInt8) : Mem := fun i => bs.getD i 0

theorem placed_memOf (bs : List UInt8) : Placed (memOf bs) 0 bs := by
  intro i h
  simp [memOf, List.getElem?_eq_getElem h]

end Trident
