import Verif.Iter.ObjectProofs
/-! Counting lemmas for merged iterators in distinct mode (no property statements here). -/
namespace Trident

theorem filter_fst_unique {o : List Pair} (h : (o.map (·.1)).Pairwise (· < ·)) {q : Pair} (hq : q ∈ o) :
    o.filter (fun p => p.1 = q.1) = [q] := by
  induction o with
  | nil => simp at hq
  | cons p o ih =>
    rw [List.map_cons, List.pairwise_cons] at h
    rcases List.mem_cons.1 hq with rfl | hq
    · rw [List.filter_cons_of_pos (by simp)]
      congr 1
      rw [List.filter_eq_nil_iff]
      intro x hx
      have := h.1 x.1 (List.mem_map.2 ⟨x, hx, rfl⟩)
      simp; omega
    · have := h.1 q.1 (List.mem_map.2 ⟨q, hq, rfl⟩)
      rw [List.filter_cons_of_neg (by simp; omega)]
      exact ih h.2 hq

theorem IsDistinct.count {ps o : List Pair} (h : IsDistinct ps o) (v : Int) :
    ((o.filter fun p => p.1 = v).map (·.2)).sum = ((ps.filter fun p => p.1 = v).length : Int) := by
  obtain ⟨h1, h2, h3⟩ := h
  by_cases hv : v ∈ o.map (·.1)
  · obtain ⟨q, hq, rfl⟩ := List.mem_map.1 hv
    rw [filter_fst_unique h1 hq, ← h3 q hq]
    simp
  · have e1 : o.filter (fun p => p.1 = v) = [] := by
      rw [List.filter_eq_nil_iff]
      intro x hx hxv
      exact hv (List.mem_map.2 ⟨x, hx, by simpa using hxv⟩)
    have e2 : ps.filter (fun p => p.1 = v) = [] := by
      rw [List.filter_eq_nil_iff]
      intro x hx hxv
      exact hv ((h2 v).2 (List.mem_map.2 ⟨x, hx, by simpa using hxv⟩))
    rw [e1, e2]; simp

theorem sum_append (a b : List Int) : (a ++ b).sum = a.sum + b.sum := by
  induction a with
  | nil => simp
  | cons x a ih => simp [ih]; omega

/-- Summing the counts of several distinct lists counts the pairs of all of them. -/
theorem isDistinct_flatMap {ys : List (List Pair × List Pair)} (h : ∀ y ∈ ys, IsDistinct y.1 y.2) {out}
    (ho : IsSum (ys.flatMap (·.2)) out) : IsDistinct (ys.flatMap (·.1)) out := by
  obtain ⟨h1, h2, h3⟩ := ho
  refine ⟨h1, fun v => ?_, fun q hq => ?_⟩
  · rw [h2]
    simp only [List.mem_map, List.mem_flatMap]
    constructor
    · rintro ⟨x, ⟨y, hy, hx⟩, rfl⟩
      obtain ⟨z, hz, e⟩ := List.mem_map.1 (((h y hy).2.1 x.1).1 (List.mem_map.2 ⟨x, hx, rfl⟩))
      exact ⟨z, ⟨y, hy, hz⟩, e⟩
    · rintro ⟨x, ⟨y, hy, hx⟩, rfl⟩
      obtain ⟨z, hz, e⟩ := List.mem_map.1 (((h y hy).2.1 x.1).2 (List.mem_map.2 ⟨x, hx, rfl⟩))
      exact ⟨z, ⟨y, hy, hz⟩, e⟩
  · rw [h3 q hq]
    generalize q.1 = v
    clear h1 h2 h3 hq
    induction ys with
    | nil => simp
    | cons y ys ih =>
      simp only [List.flatMap_cons, List.filter_append, List.map_append, List.length_append]
      rw [sum_append, ih (fun y hy => h y (by simp [hy])), (h y (by simp)).count v]
      omega

theorem filter_not_mem_length {ps qs : List Pair} (hp : ps.Nodup) (hq : qs.Nodup) (hsub : ∀ q ∈ qs, q ∈ ps) :
    (ps.filter fun p => decide (p ∉ qs)).length + qs.length = ps.length := by
  induction qs generalizing ps with
  | nil => simp
  | cons q qs ih =>
    rw [List.nodup_cons] at hq
    have hqp : q ∈ ps := hsub q (by simp)
    have hpe : ps.Perm (q :: ps.erase q) := List.perm_cons_erase hqp
    have hn : (ps.erase q).Nodup := hp.erase q
    have hq' : q ∉ ps.erase q := fun h => ((List.Nodup.mem_erase_iff hp).1 h).1 rfl
    have h1 := ih hn hq.2 (fun x hx => (List.Nodup.mem_erase_iff hp).2
      ⟨fun e => hq.1 (e ▸ hx), hsub x (by simp [hx])⟩)
    have e : (ps.filter fun p => decide (p ∉ q :: qs)).length =
        ((ps.erase q).filter fun p => decide (p ∉ qs)).length := by
      rw [(hpe.filter _).length_eq, List.filter_cons_of_neg (by simp)]
      congr 1
      apply List.filter_congr
      intro x hx
      have : x ≠ q := fun e => hq' (e ▸ hx)
      simp [this]
    rw [e, List.length_cons]
    have := hpe.length_eq
    rw [List.length_cons] at this
    omega

/-- Subtracting the counts counts the pairs that remain. -/
theorem isDistinct_remain {k : Int} {ps qs dm dr : List Pair} (hp : ps.Nodup) (hq : qs.Nodup)
    (hsub : ∀ q ∈ qs, q ∈ ps) (hm : IsDistinct ps dm) (hr : IsDistinct qs dr) :
    IsDistinct (ps.filter fun p => decide (p ∉ qs)) (dm.filterMap (Rm.remain (Rm.distinct k k) dr)) := by
  have hcnt : ∀ v, ((ps.filter fun p => decide (p ∉ qs)).filter fun p => p.1 = v).length +
      (qs.filter fun p => p.1 = v).length = (ps.filter fun p => p.1 = v).length := by
    intro v
    have := filter_not_mem_length (ps := ps.filter fun p => p.1 = v) (qs := qs.filter fun p => p.1 = v)
      (hp.filter _) (hq.filter _) (by
        intro q hq
        rw [List.mem_filter] at hq ⊢
        exact ⟨hsub q hq.1, hq.2⟩)
    rw [← this]
    congr 2
    rw [List.filter_filter, List.filter_filter]
    apply List.filter_congr
    intro x _
    by_cases hx : x.1 = v <;> simp [hx]
  -- what remains of an entry
  have hrem : ∀ e ∈ dm, Rm.remain (Rm.distinct k k) dr e =
      (let c := (((ps.filter fun p => decide (p ∉ qs)).filter fun p => p.1 = e.1).length : Int)
       if c > 0 then some (e.1, c) else none) := by
    intro e he
    have h1 := hcnt e.1
    have h2 := hm.2.2 e he
    have hpos : 0 < (ps.filter fun p => p.1 = e.1).length := by
      obtain ⟨x, hx, hxe⟩ := List.mem_map.1 ((hm.2.1 e.1).1 (List.mem_map.2 ⟨e, he, rfl⟩))
      apply List.length_pos_of_mem (a := x)
      rw [List.mem_filter]; exact ⟨hx, by simpa using hxe⟩
    unfold Rm.remain
    have hpred : (fun r : Pair => decide ((Rm.distinct k k).kr r = (Rm.distinct k k).km e)) =
        fun r => decide (r.1 = e.1) := by
      funext r
      have : ((Rm.distinct k k).kr r = (Rm.distinct k k).km e) ↔ r.1 = e.1 := by
        simp [Rm.distinct]
      simp only [this]
    simp only [hpred]
    cases hf : dr.find? (fun r => decide (r.1 = e.1)) with
    | none =>
      have hnone : (qs.filter fun p => p.1 = e.1).length = 0 := by
        rw [List.length_eq_zero_iff, List.filter_eq_nil_iff]
        intro x hx hxe
        obtain ⟨r, hr1, hr2⟩ := List.mem_map.1 ((hr.2.1 x.1).2 (List.mem_map.2 ⟨x, hx, rfl⟩))
        have := List.find?_eq_none.1 hf r hr1
        simp at this hxe
        exact this (by rw [hr2, hxe])
      rw [hnone] at h1
      simp only
      rw [if_pos (by omega)]
      congr 1
      exact Prod.ext rfl (by simp only; omega)
    | some r =>
      have h3 := List.find?_some hf
      have h4 := List.mem_of_find?_eq_some hf
      simp at h3
      have h5 := hr.2.2 r h4
      rw [h3] at h5
      simp only [Rm.distinct]
      rw [h2, h5]
      have : (((ps.filter fun p => p.1 = e.1).length : Int) - ((qs.filter fun p => p.1 = e.1).length : Int)) =
        (((ps.filter fun p => decide (p ∉ qs)).filter fun p => p.1 = e.1).length : Int) := by omega
      rw [this]
  have hfst : ∀ e ∈ dm, ∀ x, Rm.remain (Rm.distinct k k) dr e = some x → x.1 = e.1 := by
    intro e he x hx
    rw [hrem e he] at hx
    simp only at hx
    split at hx
    · simp only [Option.some.injEq] at hx; rw [← hx]
    · simp at hx
  refine ⟨?_, fun v => ?_, fun q hq' => ?_⟩
  · have h1 := hm.1
    rw [List.pairwise_map] at h1 ⊢
    clear hm
    induction dm with
    | nil => simp
    | cons e dm ih =>
      rw [List.pairwise_cons] at h1
      rw [List.filterMap_cons]
      have ih' := ih (fun e he => hrem e (by simp [he])) (fun e he => hfst e (by simp [he])) h1.2
      split
      · exact ih'
      · rename_i x hx
        rw [List.pairwise_cons]
        refine ⟨fun y hy => ?_, ih'⟩
        obtain ⟨e', he', hy'⟩ := List.mem_filterMap.1 hy
        rw [hfst e (by simp) x hx, hfst e' (by simp [he']) y hy']
        exact h1.1 e' he'
  · constructor
    · intro hv
      obtain ⟨x, hx, rfl⟩ := List.mem_map.1 hv
      obtain ⟨e, he, hex⟩ := List.mem_filterMap.1 hx
      have hx1 := hfst e he x hex
      rw [hrem e he] at hex
      simp only at hex
      split at hex
      · rename_i hc
        have : 0 < ((ps.filter fun p => decide (p ∉ qs)).filter fun p => p.1 = e.1).length := by omega
        obtain ⟨y, hy⟩ := List.exists_mem_of_length_pos this
        rw [List.mem_filter] at hy
        exact List.mem_map.2 ⟨y, hy.1, by rw [hx1]; simpa using hy.2⟩
      · simp at hex
    · intro hv
      obtain ⟨x, hx, rfl⟩ := List.mem_map.1 hv
      have hxp := (List.mem_filter.1 hx).1
      obtain ⟨e, he, hex⟩ := List.mem_map.1 ((hm.2.1 x.1).2 (List.mem_map.2 ⟨x, hxp, rfl⟩))
      have hpos : 0 < ((ps.filter fun p => decide (p ∉ qs)).filter fun p => p.1 = e.1).length := by
        apply List.length_pos_of_mem (a := x)
        rw [List.mem_filter]; exact ⟨hx, by simp [hex]⟩
      refine List.mem_map.2 ⟨(e.1, (((ps.filter fun p => decide (p ∉ qs)).filter fun p => p.1 = e.1).length : Int)),
        List.mem_filterMap.2 ⟨e, he, ?_⟩, hex⟩
      rw [hrem e he]
      simp only
      rw [if_pos (by omega)]
  · obtain ⟨e, he, hex⟩ := List.mem_filterMap.1 hq'
    have hx1 := hfst e he q hex
    rw [hrem e he] at hex
    simp only at hex
    split at hex
    · simp only [Option.some.injEq] at hex
      rw [← hex]
    · simp at hex

end Trident
