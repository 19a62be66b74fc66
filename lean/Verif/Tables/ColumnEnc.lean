import Verif.Tables.Column
import Verif.Tables.Groups
/-! What the column inserter writes, and what a reader of it finds in memory. -/
namespace Trident

theorem lt_pow_nbytes (n : Nat) : n < 256 ^ nbytes n := by
  fun_induction nbytes n with
  | case1 n h => simpa using h
  | case2 n h ih => rw [Nat.pow_succ]; omega

theorem nbytes_pos (n : Nat) : 0 < nbytes n := by unfold nbytes; split <;> omega

theorem nbytes_le {n k : Nat} (hk : 0 < k) (h : n < 256 ^ k) : nbytes n ≤ k := by
  fun_induction nbytes n generalizing k with
  | case1 n _ => omega
  | case2 n hn ih =>
    obtain ⟨k, rfl⟩ : ∃ j, k = j + 1 := ⟨k - 1, by omega⟩
    have hk0 : 0 < k := by
      rcases Nat.eq_zero_or_pos k with rfl | h1
      · simp at h; omega
      · exact h1
    have := ih hk0 (by rw [Nat.pow_succ] at h; omega)
    omega

theorem rdN_encBE (w : Nat) (m : Mem) (a n : Nat) (h : Placed m a (encBE w n)) :
    rdN w m a = ((n % 256 ^ w : Nat) : Int) := by
  induction w generalizing a with
  | zero => simp [rdN, Nat.mod_one]
  | succ w ih =>
    rw [encBE, placed_cons] at h
    rw [rdN, ih _ h.2, h.1, ub_ofNat, Nat.pow_succ]
    have h1 : n % (256 ^ w * 256) = n % 256 ^ w + 256 ^ w * (n / 256 ^ w % 256) := Nat.mod_mul
    rw [h1]; simp only [Int.natCast_add, Int.natCast_mul, Int.natCast_pow]
    rw [Int.mul_comm]; simp; omega

theorem rdN_of_lt {w : Nat} {m : Mem} {a n : Nat} (hn : n < 256 ^ w) (h : Placed m a (encBE w n)) :
    rdN w m a = (n : Int) := by rw [rdN_encBE w m a n h, Nat.mod_eq_of_lt hn]

theorem encV_length_le {n k : Nat} (hk : 0 < k) (h : n < 128 ^ k) : (encV n).length ≤ k := by
  fun_induction encV n generalizing k with
  | case1 n _ => simp only [List.length_singleton]; omega
  | case2 n hn ih =>
    obtain ⟨k, rfl⟩ : ∃ j, k = j + 1 := ⟨k - 1, by omega⟩
    have hk0 : 0 < k := by
      rcases Nat.eq_zero_or_pos k with rfl | h1
      · simp at h; omega
      · exact h1
    have := ih hk0 (by rw [Nat.pow_succ] at h; omega)
    simp only [List.length_cons]; omega

/-- Number of second values in the first `i` groups. -/
def tot {α β : Type} (gs : List (α × List β)) (i : Nat) : Nat := ((gs.take i).map (·.2.length)).sum

@[simp] theorem tot_zero {α β} (gs : List (α × List β)) : tot gs 0 = 0 := by simp [tot]

theorem tot_succ {α β} (gs : List (α × List β)) (i : Nat) (h : i < gs.length) :
    tot gs (i + 1) = tot gs i + gs[i].2.length := by
  simp only [tot]; rw [List.take_succ_eq_append_getElem h, List.map_append, List.sum_append]; simp

theorem tot_cons {α β} (g : α × List β) (gs : List (α × List β)) (i : Nat) :
    tot (g :: gs) (i + 1) = g.2.length + tot gs i := by simp [tot]

theorem tot_mono {α β} (gs : List (α × List β)) {i j : Nat} (h : i ≤ j) : tot gs i ≤ tot gs j := by
  induction gs generalizing i j with
  | nil => simp [tot]
  | cons g gs ih =>
    cases i with
    | zero => simp
    | succ i =>
      cases j with
      | zero => omega
      | succ j => rw [tot_cons, tot_cons]; have := @ih i j (by omega); omega

theorem tot_append {α β} (xs ys : List (α × List β)) :
    tot (xs ++ ys) (xs ++ ys).length = tot xs xs.length + tot ys ys.length := by
  simp only [tot, List.take_length, List.map_append, List.sum_append]

theorem flatMap_snd_length {α β} (gs : List (α × List β)) :
    (gs.flatMap (·.2)).length = tot gs gs.length := by
  simp [tot, List.length_flatMap]

namespace Column

/-- Keys with the index of their first second-value. -/
def starts (o : Nat) : List (Nat × List Nat) → List (Nat × Nat)
  | [] => []
  | g :: gs => (g.1, o) :: starts (o + g.2.length) gs

theorem starts_append (o : Nat) (xs ys : List (Nat × List Nat)) :
    starts o (xs ++ ys) = starts o xs ++ starts (o + tot xs xs.length) ys := by
  induction xs generalizing o with
  | nil => simp [starts]
  | cons x xs ih =>
    simp only [List.cons_append, starts, ih, List.length_cons, tot_cons, Nat.add_assoc]

theorem starts_length (o : Nat) (xs : List (Nat × List Nat)) : (starts o xs).length = xs.length := by
  induction xs generalizing o with
  | nil => rfl
  | cons x xs ih => simp [starts, ih]

/-- Inserter state after the groups `D` and the current group `(k, vs)`. -/
structure Inv (s : Ins) (D : List (Nat × List Nat)) (k : Nat) (vs : List Nat) : Prop where
  first : s.off1 ++ s.first = starts 0 (D ++ [(k, vs)])
  second : s.off2 ++ s.second = (D ++ [(k, vs)]).flatMap (·.2)
  prev : s.prev = k
  prevtotal : s.prevtotal = tot D D.length
  l1 : ∀ g ∈ D ++ [(k, vs)], g.1 ≤ s.largest1
  l2 : ∀ g ∈ D ++ [(k, vs)], ∀ v ∈ g.2, v ≤ s.largest2
  lg : ∀ g ∈ D, g.2.length ≤ s.largestGroup
  lgle : s.largestGroup ≤ tot D D.length
  in1 : ∀ M, (∀ g ∈ D ++ [(k, vs)], g.1 < M) → s.largest1 < M
  in2 : ∀ M, 0 < M → (∀ g ∈ D ++ [(k, vs)], ∀ v ∈ g.2, v < M) → s.largest2 < M

theorem Inv.offload {thr s D k vs} (h : Inv s D k vs) : Inv (offload thr s) D k vs := by
  have h1 : ∀ s : Ins, Inv s D k vs →
      Inv (if s.first.length ≥ thr then { s with off1 := s.off1 ++ s.first, first := [] } else s) D k vs := by
    intro s h
    split
    · exact ⟨by simpa using h.first, h.second, h.prev, h.prevtotal, h.l1, h.l2, h.lg, h.lgle, h.in1, h.in2⟩
    · exact h
  have h2 : ∀ s : Ins, Inv s D k vs →
      Inv (if s.second.length ≥ thr then { s with off2 := s.off2 ++ s.second, second := [] } else s) D k vs := by
    intro s h
    split
    · exact ⟨h.first, by simpa using h.second, h.prev, h.prevtotal, h.l1, h.l2, h.lg, h.lgle, h.in1, h.in2⟩
    · exact h
  exact h2 _ (h1 _ h)

theorem Inv.same {thr s D k vs} (h : Inv s D k vs) (v : Nat) :
    Inv (append thr s (k, v)) D k (vs ++ [v]) := by
  refine Inv.offload ?_
  have hn : newFirst s k = s := by rw [newFirst, if_neg (by rw [h.prev]; simp)]
  simp only [hn]
  have hk := h.l1 (k, vs) (by simp)
  simp only at hk
  refine ⟨?_, ?_, h.prev, h.prevtotal, ?_, ?_, h.lg, h.lgle, ?_, ?_⟩
  · have := h.first; simp only [starts_append, starts, pushSecond] at this ⊢; exact this
  · have := h.second
    simp only [List.flatMap_append, List.flatMap_cons, List.flatMap_nil, List.append_nil,
      pushSecond] at this ⊢
    rw [← List.append_assoc, ← List.append_assoc, this]
  · intro g hg
    have hge : s.largest1 ≤ (pushSecond s (k, v)).largest1 := by simp only [pushSecond]; split <;> omega
    rcases List.mem_append.1 hg with hg | hg
    · exact Nat.le_trans (h.l1 g (by simp [hg])) hge
    · simp only [List.mem_singleton] at hg; subst hg; exact Nat.le_trans hk hge
  · intro g hg x hx
    have hge : s.largest2 ≤ (pushSecond s (k, v)).largest2 ∧ v ≤ (pushSecond s (k, v)).largest2 := by
      simp only [pushSecond]; split <;> omega
    rcases List.mem_append.1 hg with hg | hg
    · exact Nat.le_trans (h.l2 g (by simp [hg]) x hx) hge.1
    · simp only [List.mem_singleton] at hg; subst hg
      simp only [List.mem_append, List.mem_singleton] at hx
      rcases hx with hx | rfl
      · exact Nat.le_trans (h.l2 (k, vs) (by simp) x hx) hge.1
      · exact hge.2
  · intro M hM
    have h1 := h.in1 M (fun g hg => by
      rcases List.mem_append.1 hg with hg | hg
      · exact hM g (by simp [hg])
      · simp only [List.mem_singleton] at hg; subst hg; exact hM (k, vs ++ [v]) (by simp))
    have h2 := hM (k, vs ++ [v]) (by simp)
    simp only [pushSecond]; simp only at h2; split <;> omega
  · intro M h0 hM
    have h1 := h.in2 M h0 (fun g hg x hx => by
      rcases List.mem_append.1 hg with hg | hg
      · exact hM g (by simp [hg]) x hx
      · simp only [List.mem_singleton] at hg; subst hg
        exact hM (k, vs ++ [v]) (by simp) x (by simp [hx]))
    have h2 := hM (k, vs ++ [v]) (by simp) v (by simp)
    simp only [pushSecond]; split <;> omega

theorem Inv.total {s D k vs} (h : Inv s D k vs) :
    s.second.length + s.off2.length = tot D D.length + vs.length := by
  have := congrArg List.length h.second
  rw [flatMap_snd_length, tot_append] at this
  simp only [List.length_append, List.length_cons, List.length_nil] at this
  rw [tot_succ _ _ (by simp)] at this
  simp at this; omega

theorem Inv.new {thr s D k vs} (h : Inv s D k vs) (t : Nat × Nat) (ht : t.1 ≠ k) :
    Inv (append thr s t) (D ++ [(k, vs)]) t.1 [t.2] := by
  refine Inv.offload ?_
  have htot := h.total
  have htot2 : tot (D ++ [(k, vs)]) (D ++ [(k, vs)]).length = tot D D.length + vs.length := by
    rw [tot_append]; simp [tot]
  have hn : newFirst s t.1 = { s with
      largestGroup := if vs.length > s.largestGroup then vs.length else s.largestGroup
      first := s.first ++ [(t.1, tot D D.length + vs.length)]
      prevtotal := tot D D.length + vs.length
      prev := t.1 } := by
    rw [newFirst, if_pos (by rw [h.prev]; omega)]
    simp only [htot, h.prevtotal, Nat.add_sub_cancel_left]
  rw [hn]
  refine ⟨?_, ?_, rfl, htot2.symm, ?_, ?_, ?_, ?_, ?_, ?_⟩
  · have := h.first
    simp only [pushSecond]
    rw [← List.append_assoc, this, starts_append 0 (D ++ [(k, vs)]), htot2]; simp [starts]
  · have := h.second
    simp only [pushSecond]
    rw [← List.append_assoc, this]; simp
  · intro g hg
    have hge : s.largest1 ≤ (if t.1 ≥ s.largest1 then t.1 else s.largest1) ∧
        t.1 ≤ (if t.1 ≥ s.largest1 then t.1 else s.largest1) := by split <;> omega
    rcases List.mem_append.1 hg with hg | hg
    · exact Nat.le_trans (h.l1 g hg) hge.1
    · simp only [List.mem_singleton] at hg; subst hg; exact hge.2
  · intro g hg x hx
    have hge : s.largest2 ≤ (if t.2 ≥ s.largest2 then t.2 else s.largest2) ∧
        t.2 ≤ (if t.2 ≥ s.largest2 then t.2 else s.largest2) := by split <;> omega
    rcases List.mem_append.1 hg with hg | hg
    · exact Nat.le_trans (h.l2 g hg x hx) hge.1
    · simp only [List.mem_singleton] at hg; subst hg
      simp only [List.mem_singleton] at hx; subst hx; exact hge.2
  · intro g hg
    have hge : s.largestGroup ≤ (if vs.length > s.largestGroup then vs.length else s.largestGroup) ∧
        vs.length ≤ (if vs.length > s.largestGroup then vs.length else s.largestGroup) := by
      split <;> omega
    rcases List.mem_append.1 hg with hg | hg
    · exact Nat.le_trans (h.lg g hg) hge.1
    · simp only [List.mem_singleton] at hg; subst hg; exact hge.2
  · have := h.lgle
    rw [htot2]; simp only [pushSecond]; split <;> omega
  · intro M hM
    have h1 := h.in1 M (fun g hg => hM g (List.mem_append_left _ hg))
    have h2 := hM (t.1, [t.2]) (by simp)
    simp only [pushSecond]; simp only at h2; split <;> omega
  · intro M h0 hM
    have h1 := h.in2 M h0 (fun g hg => hM g (List.mem_append_left _ hg))
    have h2 := hM (t.1, [t.2]) (by simp) t.2 (by simp)
    simp only [pushSecond]; split <;> omega

theorem Inv.fold {thr s D k vs} (h : Inv s D k vs) (hvs : vs ≠ []) (l : List (Nat × Nat)) :
    ∃ D' k' vs', Inv (l.foldl (append thr) s) D' k' vs' ∧
      D' ++ [(k', vs')] = D ++ groups (vs.map (fun v => (k, v)) ++ l) := by
  induction l generalizing s D k vs with
  | nil => exact ⟨D, k, vs, h, by rw [List.append_nil, groups_block k vs hvs]⟩
  | cons t l ih =>
    rw [List.foldl_cons]
    by_cases ht : t.1 = k
    · obtain ⟨t1, t2⟩ := t
      simp only at ht; subst ht
      obtain ⟨D', k', vs', h1, h2⟩ := ih (h.same (thr := thr) t2) (by simp)
      exact ⟨D', k', vs', h1, by rw [h2]; simp⟩
    · obtain ⟨D', k', vs', h1, h2⟩ := ih (h.new (thr := thr) t ht) (by simp)
      refine ⟨D', k', vs', h1, ?_⟩
      rw [h2, groups_block_append k vs hvs (t :: l)
        (by rintro p r hh; injection hh with hh; subst hh; exact ht)]
      simp

theorem inv_start {thr} (t : Nat × Nat) : Inv (append thr startAppend t) [] t.1 [t.2] := by
  refine Inv.offload ?_
  have hn : newFirst startAppend t.1 = { startAppend with first := [(t.1, 0)], prev := t.1 } := by
    rw [newFirst, if_pos (by simp [startAppend])]
    simp [startAppend]
  rw [hn]
  refine ⟨by simp [pushSecond, startAppend, starts], by simp [pushSecond, startAppend], rfl,
    by simp [pushSecond, startAppend], ?_, ?_, by simp, by simp [pushSecond, startAppend], ?_, ?_⟩ <;>
    simp [pushSecond, startAppend]

/-! ### Blocks -/

/-- The blocks of the groups. -/
def blocks (b1 bc bo : Nat) (o : Nat) : List (Nat × List Nat) → List UInt8
  | [] => []
  | g :: gs => encBlock b1 bc bo g.1 g.2.length o ++ blocks b1 bc bo (o + g.2.length) gs

theorem writeFirsts_starts {b1 bc bo total o : Nat} {gs : List (Nat × List Nat)}
    (h : o + tot gs gs.length = total) :
    writeFirsts b1 bc bo total (starts o gs) = blocks b1 bc bo o gs := by
  induction gs generalizing o with
  | nil => rfl
  | cons g gs ih =>
    cases gs with
    | nil =>
      have : total - o = g.2.length := by simp [tot] at h; omega
      simp [starts, writeFirsts, blocks, this]
    | cons g' gs =>
      have h' : o + g.2.length + tot (g' :: gs) (g' :: gs).length = total := by
        rw [← h]; simp only [List.length_cons, tot_cons]; omega
      have := ih h'
      simp only [starts, writeFirsts, blocks] at this ⊢
      rw [this, Nat.add_sub_cancel_left]

/-- The blocks written with part of the first values offloaded are the same. -/
theorem writeOff_append (b1 bc bo total : Nat) (off tmp : List (Nat × Nat)) :
    writeOff b1 bc bo total off tmp ++ writeFirsts b1 bc bo total tmp =
      writeFirsts b1 bc bo total (off ++ tmp) := by
  have key : ∀ (off : List (Nat × Nat)) (p : Nat × Nat) (out : List UInt8),
      ∃ q bs, off.foldl (offStep b1 bc bo) (some p, out) = (some q, out ++ bs) ∧
        bs ++ writeFirsts b1 bc bo total (q :: tmp) = writeFirsts b1 bc bo total (p :: off ++ tmp) := by
    intro off
    induction off with
    | nil => intro p out; exact ⟨p, [], by simp, by simp⟩
    | cons v off ih =>
      intro p out
      obtain ⟨q, bs, h1, h2⟩ := ih v (out ++ encBlock b1 bc bo p.1 (v.2 - p.2) p.2)
      refine ⟨q, encBlock b1 bc bo p.1 (v.2 - p.2) p.2 ++ bs, ?_, ?_⟩
      · rw [List.foldl_cons]; simp only [offStep]; rw [h1]; simp
      · rw [List.append_assoc, h2]; simp [writeFirsts]
  cases off with
  | nil => simp [writeOff]
  | cons v off =>
    obtain ⟨q, bs, h1, h2⟩ := key off v []
    rw [← h2]
    simp only [writeOff, List.foldl_cons]
    rw [show offStep b1 bc bo (none, []) v = (some v, []) from rfl, h1]
    cases tmp with
    | nil => simp [writeFirsts]
    | cons t tmp => simp [writeFirsts]

/-- The byte widths chosen for a table. -/
structure Widths (gs : List (Nat × List Nat)) (b1 b2 bc bo : Nat) : Prop where
  k : ∀ g ∈ gs, g.1 < 256 ^ b1
  v : ∀ g ∈ gs, ∀ v ∈ g.2, v < 256 ^ b2
  c : ∀ g ∈ gs, g.2.length < 256 ^ bc
  o : tot gs gs.length < 256 ^ bo
  p1 : 0 < b1
  p2 : 0 < b2
  m1 : b1 < 8
  m2 : b2 < 8
  mc : bc < 8
  mo : bo < 8

/-- Values and sizes that the layout supports: the widths in the header have three bits. -/
def Fits (l : List (Nat × Nat)) : Prop :=
  (∀ p ∈ l, p.1 < 2 ^ 56 ∧ p.2 < 2 ^ 56) ∧ l.length < 2 ^ 56

theorem flatMap_groups (l : List (Nat × Nat)) : (groups l).flatMap (·.2) = l.map (·.2) := by
  induction l with
  | nil => rfl
  | cons p l ih =>
    simp only [groups]
    split
    · rename_i k vs g hg
      rw [hg] at ih
      split
      · simp only [List.flatMap_cons, List.map_cons] at ih ⊢; rw [← ih]; simp
      · simp only [List.flatMap_cons, List.map_cons] at ih ⊢; rw [← ih]; simp
    · rename_i hg
      rw [hg] at ih
      simp at ih; simp [← ih]

theorem tot_groups (l : List (Nat × Nat)) : tot (groups l) (groups l).length = l.length := by
  rw [← flatMap_snd_length, flatMap_groups]; simp

/-- What the inserter writes. -/
theorem encode_eq (thr : Nat) (l : List (Nat × Nat)) (hf : Fits l) :
    ∃ b1 b2 bc bo, Widths (groups l) b1 b2 bc bo ∧ encode thr l =
      [UInt8.ofNat (b1 * 8 + b2), UInt8.ofNat (bc * 8 + bo)] ++
        (encV (groups l).length ++ (encV l.length ++
          (blocks b1 bc bo 0 (groups l) ++ (l.map (·.2)).flatMap (encBE b2)))) := by
  have e56 : 2 ^ 56 = 256 ^ 7 := by decide
  cases l with
  | nil =>
    refine ⟨1, 1, 1, 1, ⟨by simp [groups], by simp [groups], by simp [groups], by simp [groups],
      by omega, by omega, by omega, by omega, by omega, by omega⟩, ?_⟩
    simp [encode, stopAppend, startAppend, nbytes, groups, writeOff, writeFirsts, blocks]
  | cons t l =>
    obtain ⟨D, k, vs, hI, hD⟩ := (inv_start (thr := thr) t).fold (by simp) l
    simp only [List.map_cons, List.map_nil, List.nil_append, List.singleton_append] at hD
    rw [show ((t.1, t.2) : Nat × Nat) = t from rfl] at hD
    rw [encode, List.foldl_cons]
    generalize hsd : l.foldl (append thr) (append thr startAppend t) = s at hI
    have htot := hI.total
    have hlen := tot_groups (t :: l)
    rw [← hD, tot_append] at hlen
    simp only [List.length_cons, List.length_nil] at hlen
    rw [tot_succ _ _ (by simp)] at hlen
    simp only [tot_zero, List.getElem_cons_zero, Nat.zero_add] at hlen
    have hfirst := hI.first
    have hsecond := hI.second
    have hl1 := hI.l1
    have hl2 := hI.l2
    have hin1 := hI.in1
    have hin2 := hI.in2
    rw [hD] at hfirst hsecond hl1 hl2 hin1 hin2
    rw [flatMap_groups] at hsecond
    have hlenf : s.first.length + s.off1.length = (groups (t :: l)).length := by
      have := congrArg List.length hfirst
      rw [starts_length] at this; simp at this; omega
    rw [stopAppend]
    simp only [htot, hlen, hlenf, hI.prevtotal]
    generalize hlg : (if l.length + 1 - tot D D.length > s.largestGroup then
      l.length + 1 - tot D D.length else s.largestGroup) = lg
    have hlgle : lg ≤ l.length + 1 := by have := hI.lgle; rw [← hlg]; split <;> omega
    have hlgge : ∀ g ∈ groups (t :: l), g.2.length ≤ lg := by
      intro g hg
      rw [← hD] at hg
      rcases List.mem_append.1 hg with hg | hg
      · have := hI.lg g hg; rw [← hlg]; split <;> omega
      · simp only [List.mem_singleton] at hg; subst hg; rw [← hlg]; simp only; split <;> omega
    have hfl := hf.2
    have hfk : ∀ g ∈ groups (t :: l), g.1 < 2 ^ 56 := by
      intro g hg
      obtain ⟨v, hv⟩ := List.exists_mem_of_ne_nil _ (groups_ne hg)
      exact (hf.1 _ (groups_mem hg hv)).1
    have hfv : ∀ g ∈ groups (t :: l), ∀ v ∈ g.2, v < 2 ^ 56 :=
      fun g hg v hv => (hf.1 _ (groups_mem hg hv)).2
    have hL1 := hin1 _ hfk
    have hL2 := hin2 _ (by decide) hfv
    rw [e56] at hL1 hL2 hfl
    simp only [List.length_cons] at hfl
    have n1 := nbytes_le (by omega : 0 < 7) hL1
    have n2 := nbytes_le (by omega : 0 < 7) hL2
    have n3 := nbytes_le (n := lg) (by omega : 0 < 7) (by omega)
    have n4 := nbytes_le (by omega : 0 < 7) hfl
    refine ⟨nbytes s.largest1, nbytes s.largest2, nbytes lg, nbytes (l.length + 1),
      ⟨?_, ?_, ?_, ?_, nbytes_pos _, nbytes_pos _, by omega, by omega, by omega, by omega⟩, ?_⟩
    · exact fun g hg => Nat.lt_of_le_of_lt (hl1 g hg) (lt_pow_nbytes _)
    · exact fun g hg v hv => Nat.lt_of_le_of_lt (hl2 g hg v hv) (lt_pow_nbytes _)
    · exact fun g hg => Nat.lt_of_le_of_lt (hlgge g hg) (lt_pow_nbytes _)
    · rw [tot_groups]; exact lt_pow_nbytes _
    · rw [Nat.mod_eq_of_lt (by omega), Nat.mod_eq_of_lt (by omega)]
      rw [← writeFirsts_starts (total := l.length + 1) (by rw [tot_groups]; simp), ← hfirst,
        ← writeOff_append, ← hsecond, List.flatMap_append]
      simp only [List.append_assoc, List.length_cons]

/-! ### In memory -/

/-- Where the parts of a table are. -/
structure Lay where
  b1 : Nat
  b2 : Nat
  bc : Nat
  bo : Nat
  p1 : Nat
  p2 : Nat

/-- Size of a block. -/
def Lay.B (L : Lay) : Nat := L.b1 + L.bc + L.bo

/-- The groups `gs` are stored in memory as described by `L`. -/
structure TabAt (m : Mem) (L : Lay) (gs : List Grp) : Prop where
  key : ∀ i (h : i < gs.length), rdN L.b1 m (L.p1 + i * L.B) = gs[i].1
  cnt : ∀ i (h : i < gs.length), rdN L.bc m (L.p1 + i * L.B + L.b1) = gs[i].2.length
  off : ∀ i, i < gs.length → rdN L.bo m (L.p1 + i * L.B + L.b1 + L.bc) = tot gs i
  val : ∀ i (h : i < gs.length) j (hj : j < gs[i].2.length),
    rdN L.b2 m (L.p2 + (tot gs i + j) * L.b2) = gs[i].2[j]
  hp2 : L.p2 = L.p1 + gs.length * L.B
  hb1 : 0 < L.b1
  hb2 : 0 < L.b2
  ne : ∀ g ∈ gs, g.2 ≠ []

theorem blocks_length (b1 bc bo o : Nat) (gs : List (Nat × List Nat)) :
    (blocks b1 bc bo o gs).length = gs.length * (b1 + bc + bo) := by
  induction gs generalizing o with
  | nil => simp [blocks]
  | cons g gs ih => simp [blocks, encBlock, ih, Nat.add_mul]; omega

theorem blocks_read {m : Mem} {b1 bc bo : Nat} {gs : List (Nat × List Nat)} {p o : Nat}
    (h : Placed m p (blocks b1 bc bo o gs)) (hk : ∀ g ∈ gs, g.1 < 256 ^ b1)
    (hc : ∀ g ∈ gs, g.2.length < 256 ^ bc) (ho : o + tot gs gs.length < 256 ^ bo)
    (i : Nat) (hi : i < gs.length) :
    rdN b1 m (p + i * (b1 + bc + bo)) = (gs[i].1 : Int) ∧
    rdN bc m (p + i * (b1 + bc + bo) + b1) = (gs[i].2.length : Int) ∧
    rdN bo m (p + i * (b1 + bc + bo) + b1 + bc) = ((o + tot gs i : Nat) : Int) := by
  induction gs generalizing p o i with
  | nil => simp at hi
  | cons g gs ih =>
    rw [blocks, placed_append] at h
    simp only [List.length_cons, tot_cons] at ho
    cases i with
    | zero =>
      have h1 := h.1
      rw [encBlock, placed_append, placed_append] at h1
      simp only [List.length_append, encBE_length] at h1
      simp only [Nat.zero_mul, Nat.add_zero, List.getElem_cons_zero, tot_zero]
      refine ⟨rdN_of_lt (hk g (by simp)) h1.1.1, rdN_of_lt (hc g (by simp)) h1.1.2, ?_⟩
      rw [Nat.add_assoc]
      exact rdN_of_lt (by omega) h1.2
    | succ i =>
      have hl : (encBlock b1 bc bo g.1 g.2.length o).length = b1 + bc + bo := by simp [encBlock, Nat.add_assoc]
      have := ih (p := p + (b1 + bc + bo)) (o := o + g.2.length) (by rw [← hl]; exact h.2)
        (fun g hg => hk g (by simp [hg])) (fun g hg => hc g (by simp [hg])) (by omega) i
        (by simpa using hi)
      rw [show p + (b1 + bc + bo) + i * (b1 + bc + bo) = p + (i + 1) * (b1 + bc + bo) by
        rw [Nat.add_mul i 1]; omega] at this
      simp only [List.getElem_cons_succ, tot_cons]
      rw [show o + (g.2.length + tot gs i) = o + g.2.length + tot gs i by omega]
      exact this

theorem flatMap_encBE_length (w : Nat) (vs : List Nat) :
    (vs.flatMap (encBE w)).length = vs.length * w := by
  induction vs with
  | nil => simp
  | cons v vs ih => simp only [List.flatMap_cons, List.length_append, ih, encBE_length,
      List.length_cons, Nat.add_mul]; omega

theorem values_read {m : Mem} {w : Nat} {vs : List Nat} {p : Nat}
    (h : Placed m p (vs.flatMap (encBE w))) (hv : ∀ v ∈ vs, v < 256 ^ w) (i : Nat)
    (hi : i < vs.length) : rdN w m (p + i * w) = (vs[i] : Int) := by
  induction vs generalizing p i with
  | nil => simp at hi
  | cons v vs ih =>
    rw [List.flatMap_cons, placed_append] at h
    cases i with
    | zero => simpa using rdN_of_lt (hv v (by simp)) h.1
    | succ i =>
      have := ih (p := p + w) (by simpa using h.2) (fun v hx => hv v (by simp [hx])) i (by simpa using hi)
      rw [show p + (i + 1) * w = p + w + i * w by rw [Nat.add_mul i 1]; omega]
      simpa using this

theorem flatMap_get {α} (gs : List (α × List Nat)) (i : Nat) (hi : i < gs.length) (j : Nat)
    (hj : j < gs[i].2.length) : ∃ h : tot gs i + j < (gs.flatMap (·.2)).length,
      (gs.flatMap (·.2))[tot gs i + j] = gs[i].2[j] := by
  induction gs generalizing i with
  | nil => simp at hi
  | cons g gs ih =>
    cases i with
    | zero =>
      have hj' : j < g.2.length := by simpa using hj
      refine ⟨by simp; omega, ?_⟩
      simp only [tot_zero, Nat.zero_add, List.flatMap_cons, List.getElem_cons_zero]
      rw [List.getElem_append_left hj']
    | succ i =>
      obtain ⟨h1, h2⟩ := ih i (by simpa using hi) (by simpa using hj)
      refine ⟨by simp only [List.flatMap_cons, List.length_append, tot_cons]; omega, ?_⟩
      simp only [tot_cons, List.flatMap_cons, List.getElem_cons_succ]
      rw [List.getElem_append_right (by omega)]
      rw [← h2]; congr 1; omega

theorem tot_map (gs : List (Nat × List Nat)) (i : Nat) : tot (gs.map grpI) i = tot gs i := by
  simp only [tot, ← List.map_take, List.map_map]
  congr 1
  apply List.map_congr_left
  intro g _; simp [grpI]

/-- Header fields read back, and the table found behind them. -/
theorem tabAt_of_placed {thr : Nat} {m : Mem} {a : Nat} {l : List (Nat × Nat)} (hf : Fits l)
    (h : Placed m a (encode thr l)) :
    ∃ L : Lay, TabAt m L ((groups l).map grpI) ∧
      setup m a (a + (encode thr l).length) =
        { b1 := L.b1, b2 := L.b2, bc := L.bc, bo := L.bo, v1 := -1, v2 := -1, nTerms := l.length,
          nUnique := (groups l).length, count := 0, scanned := 0,
          stop := L.p2 + l.length * L.b2, startpos1 := L.p1, startpos2 := L.p2, startblock2 := 0,
          pos1 := L.p1, pos2 := L.p2, ign := false, sv1 := 0, spos1 := 0, scount := 0,
          sscanned := 0, sstartblock2 := 0, sv2 := 0, spos2 := 0 } := by
  obtain ⟨b1, b2, bc, bo, hw, he⟩ := encode_eq thr l hf
  rw [he] at h ⊢
  have hlen : (groups l).length ≤ l.length := by
    rw [← tot_groups l]
    have : ∀ (gs : List (Nat × List Nat)), (∀ g ∈ gs, g.2 ≠ []) → gs.length ≤ tot gs gs.length := by
      intro gs
      induction gs with
      | nil => simp
      | cons g gs ih =>
        intro hne
        simp only [List.length_cons, tot_cons]
        have := ih (fun g hg => hne g (by simp [hg]))
        have := List.length_pos_iff.2 (hne g (by simp))
        omega
    exact this _ (fun g hg => groups_ne hg)
  have hb : ∀ n, n < 2 ^ 56 → (encV n).length ≤ 10 := fun n hn =>
    encV_length_le (by omega) (Nat.lt_of_lt_of_le hn (by decide))
  simp only [List.cons_append, List.nil_append, placed_cons, placed_append] at h
  obtain ⟨h1, h2, h3, h4, h5, h6⟩ := h
  rw [show a + 1 + 1 = a + 2 from rfl] at h3 h4 h5 h6
  have d1 := decVMem_encV m (a + 2) _ h3 10 (hb _ (Nat.lt_of_le_of_lt hlen hf.2))
  have d2 := decVMem_encV m _ _ h4 10 (hb _ hf.2)
  rw [blocks_length] at h6
  have w1 := hw.m1; have w2 := hw.m2; have wc := hw.mc; have wo := hw.mo
  have e1 : (UInt8.ofNat (b1 * 8 + b2)).toNat = b1 * 8 + b2 := by simp; omega
  have e2 : (UInt8.ofNat (bc * 8 + bo)).toNat = bc * 8 + bo := by simp; omega
  generalize hq : a + 2 + (encV (groups l).length).length + (encV l.length).length = q at *
  have hwo := hw.o
  refine ⟨⟨b1, b2, bc, bo, q, q + (b1 + bc + bo) * (groups l).length⟩, ?_, ?_⟩
  · have hbl := fun i hi => blocks_read h5 hw.k hw.c (by simpa using hwo) i hi
    constructor
    · intro i hi
      simp only [List.length_map] at hi
      simp only [Lay.B, List.getElem_map, grpI]; exact (hbl i hi).1
    · intro i hi
      simp only [List.length_map] at hi
      simp only [Lay.B, List.getElem_map, grpI, List.length_map]; exact (hbl i hi).2.1
    · intro i hi
      simp only [List.length_map] at hi
      simp only [Lay.B, tot_map]; simpa using (hbl i hi).2.2
    · intro i hi j hj
      simp only [List.length_map] at hi
      simp only [List.getElem_map, grpI, List.length_map] at hj
      simp only [tot_map, List.getElem_map, grpI]
      obtain ⟨g1, g2⟩ := flatMap_get (groups l) i hi j hj
      have hvs : ∀ v ∈ (groups l).flatMap (·.2), v < 256 ^ b2 := by
        intro v hv
        obtain ⟨g, hg, hv⟩ := List.mem_flatMap.1 hv
        exact hw.v g hg v hv
      rw [← flatMap_groups] at h6
      have := values_read h6 hvs _ g1
      rw [g2, Nat.mul_comm _ (b1 + bc + bo)] at this
      exact this
    · simp [Lay.B, Nat.mul_comm]
    · exact hw.p1
    · exact hw.p2
    · intro g hg
      obtain ⟨x, hx, rfl⟩ := List.mem_map.1 hg
      simpa [grpI] using groups_ne hx
  · rw [setup]
    simp only [h1, h2, e1, e2, d1, d2]
    have x1 : (b1 * 8 + b2) / 8 % 8 = b1 := by omega
    have x2 : (b1 * 8 + b2) % 8 = b2 := by omega
    have x3 : (bc * 8 + bo) / 8 % 8 = bc := by omega
    have x4 : (bc * 8 + bo) % 8 = bo := by omega
    simp only [x1, x2, x3, x4]
    have : (List.flatMap (encBE b2) (l.map (·.2))).length = l.length * b2 := by
      rw [flatMap_encBE_length, List.length_map]
    congr 1
    simp only [List.length_append, List.length_cons, List.length_nil, blocks_length, this]
    rw [Nat.mul_comm (groups l).length]; omega

end Column
end Trident
