import Verif.Iter.Object
import Verif.Iter.CompositeDProofs
import Verif.Iter.RmProofs
import Verif.Iter.Drivers
/-! Lemmas about iterator objects (no property statements here). -/
namespace Trident

theorem fam_yields {cs : List Obj} {i : Fin cs.length} {s l} (h : Yields (cs.get i).I s l) :
    Yields (famItr cs) ⟨i, s⟩ l := by
  induction h with
  | done h => exact .done h
  | step h1 _ ih => exact .step (I := famItr cs) (s := ⟨i, _⟩) h1 ih

theorem fam_reached {cs : List Obj} {i : Fin cs.length} {s0 : (cs.get i).σ} {c : FamSt cs}
    (h : Reached (famItr cs) (famMv cs) ⟨i, s0⟩ c) :
    ∃ s, c = ⟨i, s⟩ ∧ Reached (cs.get i).I (cs.get i).mv s0 s := by
  induction h with
  | first h => exact ⟨_, rfl, .first h⟩
  | next _ h ih =>
    obtain ⟨s, rfl, h1⟩ := ih
    exact ⟨_, rfl, .next h1 h⟩
  | seek c1 c2 _ h ih =>
    obtain ⟨s, rfl, h1⟩ := ih
    exact ⟨_, rfl, .seek c1 c2 h1 h⟩

theorem fam_seekOK {cs : List Obj} {i : Fin cs.length} {s l} (h : SeekOK (cs.get i).I (cs.get i).mv s l) :
    SeekOK (famItr cs) (famMv cs) ⟨i, s⟩ l := by
  intro c hc
  obtain ⟨s', rfl, h1⟩ := fam_reached hc
  obtain ⟨pre, rest, h2, h3, h4⟩ := h s' h1
  exact ⟨pre, rest, h2, fam_yields h3, fun c1 c2 => fam_yields (h4 c1 c2)⟩

theorem fam_seekOKD {cs : List Obj} {i : Fin cs.length} {s l} (h : SeekOKD (cs.get i).I (cs.get i).mv s l) :
    SeekOKD (famItr cs) (famMv cs) ⟨i, s⟩ l := by
  intro c hc
  obtain ⟨s', rfl, h1⟩ := fam_reached hc
  obtain ⟨pre, rest, h2, h3, h4⟩ := h s' h1
  exact ⟨pre, rest, h2, fam_yields h3, fun c1 c2 => fam_yields (h4 c1 c2)⟩

/-- `hasNext` has been called on the object and returned true. -/
def Obj.Ready (o : Obj) : Prop := o.I.hasNext o.s = (true, o.s)

/-- Calling `hasNext` does not change what the getters return. -/
def Obj.Steady (o : Obj) : Prop := ∀ s, o.I.val (o.I.hasNext s).2 = o.I.val s

/-- A seek that finds nothing leaves the getters below the target. -/
def FailBelow {σ : Type} (I : Itr σ Pair) (mv : Int → Int → σ → σ) (s0 : σ) : Prop :=
  ∀ s, Reached I mv s0 s → ∀ c1 c2, (I.hasNext (mv c1 c2 s)).1 = false →
    Pair.lt (I.val (I.hasNext (mv c1 c2 s)).2) (c1, c2)

/-- The same in distinct mode. -/
def FailBelowD {σ : Type} (I : Itr σ Pair) (mv : Int → Int → σ → σ) (s0 : σ) : Prop :=
  ∀ s, Reached I mv s0 s → ∀ c1 c2, (I.hasNext (mv c1 c2 s)).1 = false →
    (I.val (I.hasNext (mv c1 c2 s)).2).1 < c1

theorem fam_failBelow {cs : List Obj} {i : Fin cs.length} {s}
    (h : FailBelow (cs.get i).I (cs.get i).mv s) : FailBelow (famItr cs) (famMv cs) ⟨i, s⟩ := by
  intro c hc c1 c2 hn
  obtain ⟨s', rfl, h1⟩ := fam_reached hc
  exact h s' h1 c1 c2 hn

theorem fam_failBelowD {cs : List Obj} {i : Fin cs.length} {s}
    (h : FailBelowD (cs.get i).I (cs.get i).mv s) : FailBelowD (famItr cs) (famMv cs) ⟨i, s⟩ := by
  intro c hc c1 c2 hn
  obtain ⟨s', rfl, h1⟩ := fam_reached hc
  exact h s' h1 c1 c2 hn

/-- The objects of a list of objects with what they return. -/
abbrev objs (xs : List (Obj × List Pair)) : List Obj := xs.map Prod.fst

/-- The children with what they return. -/
def famList (xs : List (Obj × List Pair)) : List (FamSt (objs xs) × List Pair) :=
  (List.finRange xs.length).map fun i =>
    (⟨i.cast (by simp), ((objs xs).get (i.cast (by simp))).s⟩, (xs.get i).2)

theorem finRange_cast {n m : Nat} (h : n = m) : (List.finRange n).map (Fin.cast h) = List.finRange m := by
  subst h; simp

theorem famList_fst (xs : List (Obj × List Pair)) :
    (famList xs).map (·.1) = famAll (objs xs) := by
  have : (List.finRange (objs xs).length) = (List.finRange xs.length).map (Fin.cast (by simp)) :=
    (finRange_cast (by simp)).symm
  unfold famList famAll
  rw [this, List.map_map, List.map_map]
  rfl

theorem famList_snd (xs : List (Obj × List Pair)) : ((famList xs).map (·.2)).flatten = xs.flatMap (·.2) := by
  unfold famList
  rw [List.map_map, ← List.flatMap_def]
  have : xs.flatMap (·.2) = ((List.finRange xs.length).map xs.get).flatMap (·.2) := by
    congr 1
    apply List.ext_getElem
    · simp
    · intro i h1 h2; simp
  rw [this, List.flatMap_map]
  rfl

theorem famList_mem {xs : List (Obj × List Pair)} {y} (h : y ∈ famList xs) :
    ∃ x ∈ xs, ∃ i : Fin (objs xs).length, (objs xs).get i = x.1 ∧
      y = (⟨i, ((objs xs).get i).s⟩, x.2) := by
  unfold famList at h
  obtain ⟨i, -, rfl⟩ := List.mem_map.1 h
  exact ⟨xs.get i, List.get_mem _ _, i.cast (by simp), by simp, rfl⟩

theorem fam_ready {xs : List (Obj × List Pair)} (h : ∀ x ∈ xs, x.1.Ready) {y} (hy : y ∈ famList xs) :
    (famItr (objs xs)).hasNext y.1 = (true, y.1) := by
  obtain ⟨x, hx, i, hi, rfl⟩ := famList_mem hy
  have := h x hx
  unfold Obj.Ready at this
  rw [← hi] at this
  simp only [famItr, this]

theorem fam_init {xs : List (Obj × List Pair)} (h : ∀ x ∈ xs, x.1.Ready) :
    (famList xs).map (fun y => ((famItr (objs xs)).hasNext y.1).2) = famAll (objs xs) := by
  rw [← famList_fst]
  apply List.map_congr_left
  intro y hy
  rw [fam_ready h hy]

theorem fam_steady {cs : List Obj} (h : ∀ o ∈ cs, o.Steady) (c : FamSt cs) :
    (famItr cs).val ((famItr cs).hasNext c).2 = (famItr cs).val c :=
  h (cs.get c.1) (List.get_mem _ _) c.2

/-- A list with the elements of `ms` in order. -/
theorem exists_sorted_perm (ms : List Pair) : ∃ out, Sorted out ∧ out.Perm ms := by
  induction ms with
  | nil => exact ⟨[], by simp [Sorted], .nil⟩
  | cons p ms ih =>
    obtain ⟨out, h1, h2⟩ := ih
    have : ∃ out', Sorted out' ∧ out'.Perm (p :: out) := by
      clear h2
      induction out with
      | nil => exact ⟨[p], by simp [Sorted], .refl _⟩
      | cons q out ih =>
        have hq := List.pairwise_cons.1 h1
        by_cases hpq : Pair.le p q
        · refine ⟨p :: q :: out, ?_, .refl _⟩
          rw [Sorted, List.pairwise_cons]
          refine ⟨fun x hx => ?_, h1⟩
          rcases List.mem_cons.1 hx with rfl | hx
          · exact hpq
          · exact Pair.le_trans hpq (hq.1 x hx)
        · obtain ⟨out', h3, h4⟩ := ih hq.2
          refine ⟨q :: out', ?_, (h4.cons q).trans (.swap _ _ _)⟩
          rw [Sorted, List.pairwise_cons]
          refine ⟨fun x hx => ?_, h3⟩
          rcases List.mem_cons.1 (h4.subset hx) with rfl | hx
          · rcases Pair.le_total x q with h | h
            · exact absurd h hpq
            · exact h
          · exact hq.1 x hx
    obtain ⟨out', h3, h4⟩ := this
    exact ⟨out', h3, h4.trans (h2.cons p)⟩

theorem Sorted.strict {l : List Pair} (h : Sorted l) (hn : l.Nodup) : SortedS l := by
  induction l with
  | nil => simp [SortedS]
  | cons p l ih =>
    rw [Sorted, List.pairwise_cons] at h
    rw [List.nodup_cons] at hn
    rw [SortedS, List.pairwise_cons]
    refine ⟨fun q hq => ?_, ih h.2 hn.2⟩
    have h1 := h.1 q hq
    have : p ≠ q := fun e => hn.1 (e ▸ hq)
    by_cases hpq : Pair.lt p q
    · exact hpq
    · exact absurd (Pair.le_antisymm h1 (Pair.not_lt.1 hpq)) this

/-- A list with the distinct first values of `ms` and the sums of their second values. -/
theorem exists_isSum (ms : List Pair) : ∃ out, IsSum ms out := by
  obtain ⟨srt, h1, h2⟩ := exists_sorted_perm ms
  have h3 := isDistinct_runs (ps := srt) (h1.imp fun h => by unfold Pair.le at h; omega)
  obtain ⟨h4, h5, -⟩ := h3
  refine ⟨((runs srt).map fun q => (q.1, ((ms.filter fun p => p.1 = q.1).map (·.2)).sum)), ?_, ?_, ?_⟩
  · rw [List.map_map]; exact h4
  · intro v
    rw [List.map_map]
    exact (h5 v).trans (h2.map (·.1)).mem_iff
  · intro q hq
    obtain ⟨r, -, rfl⟩ := List.mem_map.1 hq
    rfl

theorem IsSum.unique {ms out out'} (h : IsSum ms out) (h' : IsSum ms out') : out = out' := by
  obtain ⟨a1, a2, a3⟩ := h
  obtain ⟨b1, b2, b3⟩ := h'
  have mem : ∀ {out out' : List Pair}, (∀ v, v ∈ out.map (·.1) ↔ v ∈ ms.map (·.1)) →
      (∀ v, v ∈ out'.map (·.1) ↔ v ∈ ms.map (·.1)) →
      (∀ q ∈ out, q.2 = ((ms.filter fun p => p.1 = q.1).map (·.2)).sum) →
      (∀ q ∈ out', q.2 = ((ms.filter fun p => p.1 = q.1).map (·.2)).sum) →
      ∀ x, x ∈ out → x ∈ out' := by
    intro out out' a2 b2 a3 b3 x hx
    have := (b2 x.1).2 ((a2 x.1).1 (List.mem_map.2 ⟨x, hx, rfl⟩))
    obtain ⟨y, hy, e⟩ := List.mem_map.1 this
    have h1 := a3 x hx; have h2 := b3 y hy
    rw [e, ← h1] at h2
    rwa [show x = y from Prod.ext e.symm h2.symm]
  rw [List.pairwise_map] at a1 b1
  have nd1 : out.Nodup := a1.imp (fun h e => by subst e; omega)
  have nd2 : out'.Nodup := b1.imp (fun h e => by subst e; omega)
  have hp : out.Perm out' := (List.perm_ext_iff_of_nodup nd1 nd2).2
    (fun x => ⟨mem a2 b2 a3 b3 x, mem b2 a2 b3 a3 x⟩)
  exact hp.eq_of_pairwise (le := fun a b => a.1 < b.1) (fun a b _ _ h1 h2 => by omega) a1 b1

/-- Scanning the merge. -/
theorem composite_yields {sort : Sorter} (hsort : ∀ cs, Composite.SortSpec (famItr cs) (sort cs))
    (xs : List (Obj × List Pair))
    (h : ∀ x ∈ xs, x.1.Ready ∧ x.1.Returns x.2 ∧ Sorted x.2) {out} (h1 : Sorted out)
    (h2 : out.Perm (xs.flatMap (·.2))) :
    (Obj.composite sort (objs xs)).Returns out := by
  have hg := Composite.good_init (D := yieldsDriver (famItr (objs xs)) (famMv (objs xs)) (fun c1 c2 p => decide (Pair.le (c1, c2) p))) (famList xs)
    (by
      intro y hy
      obtain ⟨x, hx, i, hi, rfl⟩ := famList_mem hy
      obtain ⟨h3, h4, h5⟩ := h x hx
      refine ⟨?_, by rw [fam_ready (fun x hx => (h x hx).1) hy], h5⟩
      apply fam_yields
      unfold Obj.Returns at h4
      rw [← hi] at h4
      exact h4) h1 (fun x => x.elim) (by rw [famList_snd]; exact h2)
  rw [fam_init (fun x hx => (h x hx).1)] at hg
  exact (Composite.driver (hsort _) _ (fun x => x.elim) (fun x => x.elim)).yields (.inl hg)

theorem composite_seekOK {sort : Sorter} (hsort : ∀ cs, Composite.SortSpec (famItr cs) (sort cs))
    (xs : List (Obj × List Pair))
    (h : ∀ x ∈ xs, x.1.Ready ∧ x.1.Returns x.2 ∧ Sorted x.2 ∧ SeekOK x.1.I x.1.mv x.1.s x.2 ∧
      x.1.Steady ∧ FailBelow x.1.I x.1.mv x.1.s) {out} (h1 : SortedS out)
    (h2 : out.Perm (xs.flatMap (·.2))) :
    SeekOK (Obj.composite sort (objs xs)).I (Obj.composite sort (objs xs)).mv
      (Obj.composite sort (objs xs)).s out := by
  have hst : ∀ o ∈ objs xs, o.Steady := by
    intro o ho
    obtain ⟨x, hx, rfl⟩ := List.mem_map.1 ho
    exact (h x hx).2.2.2.2.1
  let Q := FailBelow (famItr (objs xs)) (famMv (objs xs))
  have hg := Composite.good_init (D := seekDriver (famItr (objs xs)) (famMv (objs xs)) Q) (famList xs)
    (by
      intro y hy
      obtain ⟨x, hx, i, hi, rfl⟩ := famList_mem hy
      obtain ⟨h3, h4, h5, h6, h7, h8⟩ := h x hx
      refine ⟨⟨?_, _, x.2, ?_, h5, ?_, .inl rfl⟩, by rw [fam_ready (fun x hx => (h x hx).1) hy], h5⟩
      · apply fam_yields
        unfold Obj.Returns at h4
        rw [← hi] at h4
        exact h4
      · rw [← hi] at h8; exact fam_failBelow h8
      · rw [← hi] at h6; exact fam_seekOK h6) h1.sorted (fun _ => h1) (by rw [famList_snd]; exact h2)
  rw [fam_init (fun x hx => (h x hx).1)] at hg
  have D := Composite.driver (sort := sort (objs xs)) (hsort _) (seekDriver (famItr (objs xs)) (famMv (objs xs)) Q)
    (fun _ => fam_steady hst)
    (by
      rintro - c e rest ⟨-, -, s0, ps, hq, -, -, hr⟩ c1 c2 hn
      exact hq _ hr c1 c2 hn)
  exact Driver.seekOK (Composite.driver (sort := sort (objs xs)) (hsort _) (seekDriver (famItr (objs xs)) (famMv (objs xs)) Q)
    (fun _ => fam_steady hst)
    (by
      rintro - c e rest ⟨-, -, s0, ps, hq, -, -, hr⟩ c1 c2 hn
      exact hq _ hr c1 c2 hn)) (.inl hg)

theorem compositeD_yields {sort : Sorter} {tie} (hsort : ∀ cs, Composite.SortSpecD (famItr cs) (sort cs))
    (xs : List (Obj × List Pair))
    (h : ∀ x ∈ xs, x.1.Ready ∧ x.1.Returns x.2 ∧ (x.2.map (·.1)).Pairwise (· < ·) ∧ x.1.Steady) {out}
    (h1 : IsSum (xs.flatMap (·.2)) out) :
    (Obj.compositeD sort tie (objs xs)).Returns out := by
  have hst : ∀ o ∈ objs xs, o.Steady := by
    intro o ho
    obtain ⟨x, hx, rfl⟩ := List.mem_map.1 ho
    exact (h x hx).2.2.2
  have hg := Composite.good_initD (D := yieldsDriver (famItr (objs xs)) (famMv (objs xs)) (fun c1 _ p => decide (c1 ≤ p.1))) (famList xs)
    (by
      intro y hy
      obtain ⟨x, hx, i, hi, rfl⟩ := famList_mem hy
      obtain ⟨h3, h4, h5, -⟩ := h x hx
      refine ⟨?_, by rw [fam_ready (fun x hx => (h x hx).1) hy], h5⟩
      apply fam_yields
      unfold Obj.Returns at h4
      rw [← hi] at h4
      exact h4) (out := out) (by rw [famList_snd]; exact h1)
  rw [fam_init (fun x hx => (h x hx).1)] at hg
  exact (Composite.driverD (hsort _) _ (fam_steady hst) (fun x => x.elim)).yields (.inl hg)

theorem compositeD_seekOK {sort : Sorter} {tie} (hsort : ∀ cs, Composite.SortSpecD (famItr cs) (sort cs))
    (xs : List (Obj × List Pair))
    (h : ∀ x ∈ xs, x.1.Ready ∧ x.1.Returns x.2 ∧ (x.2.map (·.1)).Pairwise (· < ·) ∧
      SeekOKD x.1.I x.1.mv x.1.s x.2 ∧ x.1.Steady ∧ FailBelowD x.1.I x.1.mv x.1.s) {out}
    (h1 : IsSum (xs.flatMap (·.2)) out) :
    SeekOKD (Obj.compositeD sort tie (objs xs)).I (Obj.compositeD sort tie (objs xs)).mv
      (Obj.compositeD sort tie (objs xs)).s out := by
  have hst : ∀ o ∈ objs xs, o.Steady := by
    intro o ho
    obtain ⟨x, hx, rfl⟩ := List.mem_map.1 ho
    exact (h x hx).2.2.2.2.1
  let Q := FailBelowD (famItr (objs xs)) (famMv (objs xs))
  have hg := Composite.good_initD (D := seekDriverD (famItr (objs xs)) (famMv (objs xs)) Q) (famList xs)
    (by
      intro y hy
      obtain ⟨x, hx, i, hi, rfl⟩ := famList_mem hy
      obtain ⟨h3, h4, h5, h6, h7, h8⟩ := h x hx
      refine ⟨⟨?_, _, x.2, ?_, List.pairwise_map.1 h5, ?_, .inl rfl⟩, by rw [fam_ready (fun x hx => (h x hx).1) hy], h5⟩
      · apply fam_yields
        unfold Obj.Returns at h4
        rw [← hi] at h4
        exact h4
      · rw [← hi] at h8; exact fam_failBelowD h8
      · rw [← hi] at h6; exact fam_seekOKD h6) (out := out) (by rw [famList_snd]; exact h1)
  rw [fam_init (fun x hx => (h x hx).1)] at hg
  exact DriverD.seekOKD (Composite.driverD (sort := sort (objs xs)) (tie := tie (objs xs)) (hsort _) (seekDriverD (famItr (objs xs)) (famMv (objs xs)) Q)
    (fam_steady hst)
    (by
      rintro - c e rest ⟨-, -, s0, ps, hq, -, -, hr⟩ c1 c2 hn
      exact hq _ hr c1 c2 hn)) (.inl hg)

/-! ### Removal -/

theorem filterMap_plain (k : Int) (ms rs : List Pair) :
    ms.filterMap (Rm.remain (Rm.plain k k) rs) = ms.filter fun p => decide (p ∉ rs) := by
  rw [← List.filterMap_eq_filter]
  congr 1
  funext p
  unfold Rm.remain
  have : ∀ r : Pair, (decide ((Rm.plain k k).kr r = (Rm.plain k k).km p)) = decide (r = p) := by
    intro r
    have : ((Rm.plain k k).kr r = (Rm.plain k k).km p) ↔ r = p := by
      simp only [Rm.plain, Prod.mk.injEq, true_and]
      constructor
      · rintro ⟨h1, h2⟩; exact Prod.ext h1 h2
      · rintro rfl; exact ⟨rfl, rfl⟩
    simp only [this]
  simp only [this]
  cases hf : rs.find? (fun r => decide (r = p)) with
  | none =>
    have : p ∉ rs := fun hp => by
      have := List.find?_eq_none.1 hf p hp
      simp at this
    simp [Option.guard, this]
  | some r =>
    have h1 := List.find?_some hf
    have h2 := List.mem_of_find?_eq_some hf
    have : r = p := by simpa using h1
    subst this
    simp [Option.guard, Rm.plain, h2]

theorem sortedK_plain_m {k k' : Int} {l : List Pair} (h : Sorted l) : Rm.SortedK (Rm.plain k k').km l :=
  h.imp fun h => by simp only [Rm.plain, lt3]; unfold Pair.le at h; omega

theorem sortedK_plain_r {k k' : Int} {l : List Pair} (h : Sorted l) : Rm.SortedK (Rm.plain k k').kr l :=
  h.imp fun h => by simp only [Rm.plain, lt3]; unfold Pair.le at h; omega

theorem sorted_of_sortedK {k k' : Int} {l : List Pair} (h : Rm.SortedK (Rm.plain k k').km l) : Sorted l := by
  unfold Rm.SortedK at h
  exact h.imp fun {a b} h => by
    have h' : ¬ (b.1 < a.1 ∨ (b.1 = a.1 ∧ b.2 < a.2)) := fun hc => h (Or.inr ⟨rfl, hc⟩)
    unfold Pair.le; omega

theorem keepOK_plain (k : Int) : Rm.KeepOK (Rm.plain k k) fun c1 c2 p => decide (Pair.le (c1, c2) p) where
  same c1 c2 e r h := by
    simp only [Rm.plain, Prod.mk.injEq, true_and] at h
    rw [show r = e from Prod.ext h.1 h.2]
  sub c1 c2 e r x h := by simp [Rm.plain] at h

theorem rm_yields {fuel : Nat} {k : Int} {a b : Obj} {ms rs : List Pair} (ha : a.Returns ms) (hb : b.Returns rs)
    (sm : Sorted ms) (sr : Sorted rs) (lm : ms.length < fuel) (lr : rs.length < fuel) :
    (Obj.rm fuel (Rm.plain k k) a b).Returns (ms.filter fun p => decide (p ∉ rs)) := by
  rw [← filterMap_plain k]
  exact (Rm.driver (yieldsDriver a.I a.mv fun c1 c2 p => decide (Pair.le (c1, c2) p))
    (yieldsDriver b.I b.mv fun c1 c2 p => decide (Pair.le (c1, c2) p)) (fun x => x.elim) (fun x => x.elim)).yields
    (Rm.good_init ha hb (sortedK_plain_m sm) (sortedK_plain_r sr) lm lr)

theorem rm_seekOK {fuel : Nat} {k : Int} {a b : Obj} {ms rs : List Pair} (ha : a.Returns ms) (hb : b.Returns rs)
    (sa : SeekOK a.I a.mv a.s ms) (sb : SeekOK b.I b.mv b.s rs)
    (sm : Sorted ms) (sr : Sorted rs) (lm : ms.length < fuel) (lr : rs.length < fuel) :
    SeekOK (Obj.rm fuel (Rm.plain k k) a b).I (Obj.rm fuel (Rm.plain k k) a b).mv
      (Obj.rm fuel (Rm.plain k k) a b).s (ms.filter fun p => decide (p ∉ rs)) := by
  rw [← filterMap_plain k]
  exact Driver.seekOK (Rm.driver (seekDriver a.I a.mv fun _ => True)
    (seekDriver b.I b.mv fun _ => True) (fun _ => keepOK_plain k)
      (fun _ l hl c1 c2 => (sorted_of_sortedK hl).filter_ge_suffix (c1, c2)))
    (Rm.good_init (hk := fun _ => keepOK_plain k)
      (hsuf := fun _ l hl c1 c2 => (sorted_of_sortedK hl).filter_ge_suffix (c1, c2))
      ⟨ha, a.s, ms, trivial, sm, sa, .inl rfl⟩ ⟨hb, b.s, rs, trivial, sr, sb, .inl rfl⟩ (sortedK_plain_m sm) (sortedK_plain_r sr) lm lr)

end Trident
