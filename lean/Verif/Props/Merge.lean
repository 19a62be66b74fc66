import Verif.Iter.Concrete
import Verif.Iter.DistinctMerge
import Verif.Iter.CompositeProbe
import Verif.Iter.TabSeek
import Verif.Props.Strat
/-!
# C17, C18: merging additions, subtracting deletions

An `Obj` is an iterator object of any class; `o.Returns l`: the client loop on it returns exactly `l`.
`o.Ready`: `hasNext` was called on it and returned true, as the querier does before it hands the
iterator to a merging iterator (querier.cpp:1083,1148,1155).
-/
namespace Trident

/-! ## C17 -/

/-- C17: the merge of any number of sorted iterators of any classes returns all pairs of all of
them, in sorted order; strictly increasing if no pair occurs twice in the inputs. -/
theorem C17_union (sort : Sorter) (hsort : ∀ cs, Composite.SortSpec (famItr cs) (sort cs))
    (xs : List (Obj × List Pair)) (h : ∀ x ∈ xs, x.1.Ready ∧ x.1.Returns x.2 ∧ Sorted x.2) :
    ∃ out, (Obj.composite sort (xs.map (·.1))).Returns out ∧ Sorted out ∧ out.Perm (xs.flatMap (·.2)) ∧
      ((xs.flatMap (·.2)).Nodup → SortedS out) := by
  obtain ⟨out, h1, h2⟩ := exists_sorted_perm (xs.flatMap (·.2))
  exact ⟨out, composite_yields hsort xs h h1 h2, h1, h2, fun hn => h1.strict (h2.nodup_iff.2 hn)⟩

/-- C17: on disjoint inputs, seeking in the merge is correct at every reachable position, if it is
correct in the inputs. -/
theorem C17_seek (sort : Sorter) (hsort : ∀ cs, Composite.SortSpec (famItr cs) (sort cs))
    (xs : List (Obj × List Pair))
    (h : ∀ x ∈ xs, x.1.Ready ∧ x.1.Returns x.2 ∧ Sorted x.2 ∧ SeekOK x.1.I x.1.mv x.1.s x.2 ∧
      x.1.Steady ∧ FailBelow x.1.I x.1.mv x.1.s) (hd : (xs.flatMap (·.2)).Nodup) :
    ∃ out, (Obj.composite sort (xs.map (·.1))).Returns out ∧ SortedS out ∧ out.Perm (xs.flatMap (·.2)) ∧
      SeekOK (Obj.composite sort (xs.map (·.1))).I (Obj.composite sort (xs.map (·.1))).mv
        (Obj.composite sort (xs.map (·.1))).s out := by
  obtain ⟨out, h1, h2, h3, h4⟩ := C17_union sort hsort xs fun x hx => ⟨(h x hx).1, (h x hx).2.1, (h x hx).2.2.1⟩
  exact ⟨out, h1, h4 hd, h3, composite_seekOK hsort xs h (h4 hd) h3⟩

/-- C17: seeking right after `hasNext` returned true, to the current element or further, is correct
too, if `hasNext` does not change the state of the inputs (as for tables). -/
theorem C17_seek_after_hasNext (sort : Sorter) (hsort : ∀ cs, Composite.SortSpec (famItr cs) (sort cs))
    (xs : List (Obj × List Pair))
    (h : ∀ x ∈ xs, x.1.Ready ∧ x.1.Returns x.2 ∧ Sorted x.2 ∧ SeekOK x.1.I x.1.mv x.1.s x.2 ∧
      (∀ s, (x.1.I.hasNext s).2 = s) ∧ FailBelow x.1.I x.1.mv x.1.s) (hd : (xs.flatMap (·.2)).Nodup) :
    let o := Obj.composite sort (xs.map (·.1))
    ∃ out, o.Returns out ∧ SortedS out ∧ out.Perm (xs.flatMap (·.2)) ∧
      ∀ s, Reached o.I o.mv o.s s → (o.I.hasNext s).1 = true →
        ∃ pre rest, out = pre ++ o.I.val s :: rest ∧ Yields o.I s rest ∧ ∀ c1 c2, Pair.le (o.I.val s) (c1, c2) →
          Yields o.I (o.mv c1 c2 (o.I.hasNext s).2)
            ((o.I.val s :: rest).filter fun p => decide (Pair.le (c1, c2) p)) := by
  intro o
  obtain ⟨out, h1, h2, h3, h4⟩ := C17_union sort hsort xs fun x hx => ⟨(h x hx).1, (h x hx).2.1, (h x hx).2.2.1⟩
  exact ⟨out, h1, h4 hd, h3, fun s hr hn => composite_seek_probed hsort xs h (h4 hd) h3 s hr hn⟩

/-- `o` is an open table over stored pairs, for which seeks are right: a row or cluster table opened
in any of the three ways, or a column table opened without constraint or with both values fixed. -/
inductive OpenTable : Obj → Prop
  | row (w1 w2 : Width) (l : List (Nat × Nat)) (m : Mem) (a : Nat) (s : Row.St) :
      Row.Fits w1 w2 l → SortedS (toI l) → l ≠ [] → Placed m a (Row.encode w1 w2 l) →
      Row.Opened w1 w2 m a (a + (Row.encode w1 w2 l).length) s → OpenTable (Obj.tab m (.row w1 w2 s))
  | cluster (w1 w2 wc : Width) (l : List (Nat × Nat)) (m : Mem) (a : Nat) (s : Cluster.St) :
      Cluster.Fits w1 w2 wc l → SortedS (toI l) → Placed m a (Cluster.encode w1 w2 wc l) →
      Cluster.Opened w1 w2 wc m a (a + (Cluster.encode w1 w2 wc l).length) s →
      OpenTable (Obj.tab m (.cluster w1 w2 wc s))
  | column (thr : Nat) (l : List (Nat × Nat)) (m : Mem) (a : Nat) (s : Column.St) :
      Column.Fits l → SortedS (toI l) → Placed m a (Column.encode thr l) →
      (s = Column.setup m a (a + (Column.encode thr l).length) ∨
        ∃ c1 c2, s = Column.setupC12 m c1 c2 a (a + (Column.encode thr l).length)) →
      OpenTable (Obj.tab m (.column s))

/-- Open tables meet all that a merge asks of its inputs. -/
theorem OpenTable.child {o : Obj} {l : List Pair} (h : OpenTable o) (hn : o.hasNext = true) (hr : o.Returns l) :
    o.Ready ∧ Sorted l ∧ SeekOK o.I o.mv o.s l ∧ o.Steady ∧ (∀ s, (o.I.hasNext s).2 = s) ∧ FailBelow o.I o.mv o.s := by
  cases h with
  | row w1 w2 ps m a s h1 h2 h3 h4 h5 =>
    obtain ⟨out, ho⟩ := h5.range h1 h2 h3 h4
    have hrt := Row.rowsAt_of_placed h1 h4
    have hy := ho.yields hrt
    have hk := C13_row_seek w1 w2 ps m a s h1 h2 h3 h4 h5 out hy
    obtain rfl := Yields.unique (Strat.yields_row hy) hr
    exact ⟨Tab.ready hn, ho.sorted h2.sorted, tab_seekOK (Strat.Tab.row w1 w2) (fun _ => rfl) (fun _ => rfl)
      (fun _ => rfl) (fun _ _ _ => rfl) hk, Tab.steady, Tab.hasNext_snd m, tab_failBelow (Strat.Tab.row w1 w2)
      (fun _ => rfl) (fun _ => rfl) (fun _ => rfl) (fun _ _ _ => rfl) (Row.failBelow hk)⟩
  | cluster w1 w2 wc ps m a s h1 h2 h4 h5 =>
    obtain ⟨out, hg⟩ := h5.good h1 h2 h4
    obtain rfl := Yields.unique (Strat.yields_cluster hg.yields) hr
    exact ⟨Tab.ready hn, hg.sorted, tab_seekOK (Strat.Tab.cluster w1 w2 wc) (fun _ => rfl) (fun _ => rfl)
      (fun _ => rfl) (fun _ _ _ => rfl) hg.seekOK, Tab.steady, Tab.hasNext_snd m,
      tab_failBelow (Strat.Tab.cluster w1 w2 wc)
      (fun _ => rfl) (fun _ => rfl) (fun _ => rfl) (fun _ _ _ => rfl) (Cluster.failBelow hg)⟩
  | column thr ps m a s h1 h2 h4 h5 =>
    have key : ∀ out, Yields (Column.itr m) s out → SortedS out → (∀ p ∈ out, 0 ≤ p.1 ∧ 0 ≤ p.2) → s.ign = false →
        SeekOK (Column.itr m) (Column.moveto m) s out → (Obj.tab m (.column s)).Ready ∧ Sorted l ∧
          SeekOK (Obj.tab m (.column s)).I (Obj.tab m (.column s)).mv (Obj.tab m (.column s)).s l ∧
          (Obj.tab m (.column s)).Steady ∧ (∀ t, ((Obj.tab m (.column s)).I.hasNext t).2 = t) ∧
          FailBelow (Obj.tab m (.column s)).I (Obj.tab m (.column s)).mv (Obj.tab m (.column s)).s := by
      intro out hy hs hp hi hk
      obtain rfl := Yields.unique (Strat.yields_column hy) hr
      exact ⟨Tab.ready hn, hs.sorted, tab_seekOK Strat.Tab.column (fun _ => rfl) (fun _ => rfl)
        (fun _ => rfl) (fun _ _ _ => rfl) hk, Tab.steady, Tab.hasNext_snd m, tab_failBelow Strat.Tab.column
        (fun _ => rfl) (fun _ => rfl) (fun _ => rfl) (fun _ _ _ => rfl) (Column.failBelow hp hi hk)⟩
    rcases h5 with rfl | ⟨c1, c2, rfl⟩
    · refine key _ (C07_column_scan thr ps m a h1 h4) h2 (fun p hp => ?_) rfl (C13_column_seek thr ps m a h1 h2 h4)
      exact ⟨toI_nonneg1 hp, toI_nonneg p hp⟩
    · refine key _ (C12_column_both_fixed thr ps m a h1 h2 h4 c1 c2) ?_ (fun p hp => ?_) ?_
        (C13_column_seek_both thr ps m a h1 h2 h4 c1 c2)
      · split <;> simp [SortedS]
      · split at hp
        · next hm =>
          simp only [List.mem_singleton] at hp
          subst hp; exact ⟨toI_nonneg1 hm, toI_nonneg _ hm⟩
        · simp at hp
      · exact Column.setupC12_ign

/-- C17 for stored tables: merging open tables of any layouts without common pairs returns all their
pairs in order, and seeks in the merge are right: both after `next` and after a `hasNext` that
returned true (then not backwards). -/
theorem C17_tables (sort : Sorter) (hsort : ∀ cs, Composite.SortSpec (famItr cs) (sort cs))
    (xs : List (Obj × List Pair)) (h : ∀ x ∈ xs, OpenTable x.1 ∧ x.1.hasNext = true ∧ x.1.Returns x.2)
    (hd : (xs.flatMap (·.2)).Nodup) :
    let o := Obj.composite sort (xs.map (·.1))
    ∃ out, o.Returns out ∧ SortedS out ∧ out.Perm (xs.flatMap (·.2)) ∧ SeekOK o.I o.mv o.s out ∧
      ∀ s, Reached o.I o.mv o.s s → (o.I.hasNext s).1 = true →
        ∃ pre rest, out = pre ++ o.I.val s :: rest ∧ Yields o.I s rest ∧ ∀ c1 c2, Pair.le (o.I.val s) (c1, c2) →
          Yields o.I (o.mv c1 c2 (o.I.hasNext s).2)
            ((o.I.val s :: rest).filter fun p => decide (Pair.le (c1, c2) p)) := by
  intro o
  obtain ⟨out, h1, h2, h3, h4⟩ := C17_seek sort hsort xs (fun x hx => by
    obtain ⟨q1, q2, q3⟩ := h x hx
    obtain ⟨a, b, c, d, e, f⟩ := q1.child q2 q3
    exact ⟨a, q3, b, c, d, f⟩) hd
  obtain ⟨out', g1, g2, g3, g4⟩ := C17_seek_after_hasNext sort hsort xs (fun x hx => by
    obtain ⟨q1, q2, q3⟩ := h x hx
    obtain ⟨a, b, c, d, e, f⟩ := q1.child q2 q3
    exact ⟨a, q3, b, c, e, f⟩) hd
  obtain rfl := Yields.unique g1 h1
  exact ⟨out', h1, h2, h3, h4, g4⟩

/-- A row table and a cluster table: the hypotheses of `C17_tables` (hence of `C17_seek_after_hasNext`)
hold and the merge is non-trivial. -/
example : ∃ out, SortedS out ∧ out.Perm [(1, 2), (3, 4), (1, 1), (1, 3), (3, 5)] := by
  obtain ⟨out, -, h2, h3, -⟩ := C17_tables msort msort_spec
    [(Obj.tab (memOf (Row.encode .b1 .b1 [(1, 2), (3, 4)])) (.row .b1 .b1 (Row.setup 0 4)), [(1, 2), (3, 4)]),
     (Obj.tab (memOf (Cluster.encode .b1 .b1 .b1 [(1, 1), (1, 3), (3, 5)]))
        (.cluster .b1 .b1 .b1 (Cluster.setup 0 7)), [(1, 1), (1, 3), (3, 5)])] (by
      intro x hx
      simp only [List.mem_cons, List.not_mem_nil, or_false] at hx
      rcases hx with rfl | rfl
      · refine ⟨.row .b1 .b1 [(1, 2), (3, 4)] _ 0 _ (by unfold Row.Fits; decide) (by decide) (by simp) (placed_memOf _) .all,
          by decide +kernel, ?_⟩
        exact Strat.yields_row (C05_row_scan .b1 .b1 [(1, 2), (3, 4)] _ 0 (by unfold Row.Fits; decide) (placed_memOf _))
      · refine ⟨.cluster .b1 .b1 .b1 [(1, 1), (1, 3), (3, 5)] _ 0 _ (by unfold Cluster.Fits; decide) (by decide) (placed_memOf _) .all,
          by decide +kernel, ?_⟩
        exact Strat.yields_cluster (C06_cluster_scan .b1 .b1 .b1 [(1, 1), (1, 3), (3, 5)] _ 0 (by unfold Cluster.Fits; decide) (placed_memOf _)))
    (by decide)
  exact ⟨out, h2, h3⟩

/-- C17: a seek right after `hasNext` to before the current element is wrong: the current element is
lost if its input is exhausted. -/
theorem C17_seek_back_after_hasNext_violated :
    let o := Obj.composite msort [Obj.array [(1, 1), (5, 5)] (-1) (-1), Obj.array [(3, 3)] (-1) (-1)]
    let s1 := o.I.next (o.I.hasNext o.s).2
    let s2 := o.I.next (o.I.hasNext s1).2
    o.I.val s2 = (3, 3) ∧ Yields o.I (o.mv 2 0 (o.I.hasNext s2).2) [(5, 5)] := by
  refine ⟨by decide +kernel, ?_⟩
  rw [yields_cons, yields_nil]; decide +kernel

/-- C17 with the second column ignored: if each input lists the distinct first values of its pairs
with their counts, the merge lists the distinct first values of all pairs with their counts. -/
theorem C17_distinct (sort : Sorter) (tie : ∀ cs : List Obj, FamSt cs → FamSt cs → Bool)
    (hsort : ∀ cs, Composite.SortSpecD (famItr cs) (sort cs)) (xs : List (Obj × List Pair × List Pair))
    (h : ∀ x ∈ xs, x.1.Ready ∧ x.1.Returns x.2.2 ∧ IsDistinct x.2.1 x.2.2 ∧ x.1.Steady) :
    ∃ out, (Obj.compositeD sort tie (xs.map (·.1))).Returns out ∧ IsDistinct (xs.flatMap (·.2.1)) out := by
  obtain ⟨out, ho⟩ := exists_isSum ((xs.map fun x => (x.1, x.2.2)).flatMap (·.2))
  refine ⟨out, ?_, ?_⟩
  · have := compositeD_yields (tie := tie) hsort (xs.map fun x => (x.1, x.2.2)) (by
      intro y hy
      obtain ⟨x, hx, rfl⟩ := List.mem_map.1 hy
      obtain ⟨h1, h2, h3, h4⟩ := h x hx
      exact ⟨h1, h2, h3.1, h4⟩) ho
    rw [show objs (xs.map fun x => (x.1, x.2.2)) = xs.map (·.1) from by simp [objs, List.map_map]] at this
    exact this
  · have := isDistinct_flatMap (ys := xs.map (·.2)) (by
      intro y hy
      obtain ⟨x, hx, rfl⟩ := List.mem_map.1 hy
      exact (h x hx).2.2.1) (out := out) (by rw [List.flatMap_map] at ho ⊢; exact ho)
    rw [List.flatMap_map] at this
    exact this

/-- C17 with the second column ignored: seeks (to a first value) are correct too. -/
theorem C17_distinct_seek (sort : Sorter) (tie : ∀ cs : List Obj, FamSt cs → FamSt cs → Bool)
    (hsort : ∀ cs, Composite.SortSpecD (famItr cs) (sort cs)) (xs : List (Obj × List Pair × List Pair))
    (h : ∀ x ∈ xs, x.1.Ready ∧ x.1.Returns x.2.2 ∧ IsDistinct x.2.1 x.2.2 ∧
      SeekOKD x.1.I x.1.mv x.1.s x.2.2 ∧ x.1.Steady ∧ FailBelowD x.1.I x.1.mv x.1.s) :
    ∃ out, IsDistinct (xs.flatMap (·.2.1)) out ∧
      SeekOKD (Obj.compositeD sort tie (xs.map (·.1))).I (Obj.compositeD sort tie (xs.map (·.1))).mv
        (Obj.compositeD sort tie (xs.map (·.1))).s out := by
  obtain ⟨out, ho⟩ := exists_isSum ((xs.map fun x => (x.1, x.2.2)).flatMap (·.2))
  refine ⟨out, ?_, ?_⟩
  · have := isDistinct_flatMap (ys := xs.map (·.2)) (by
      intro y hy
      obtain ⟨x, hx, rfl⟩ := List.mem_map.1 hy
      exact (h x hx).2.2.1) (out := out) (by rw [List.flatMap_map] at ho ⊢; exact ho)
    rw [List.flatMap_map] at this
    exact this
  · have := compositeD_seekOK (tie := tie) hsort (xs.map fun x => (x.1, x.2.2)) (by
      intro y hy
      obtain ⟨x, hx, rfl⟩ := List.mem_map.1 hy
      obtain ⟨h1, h2, h3, h4⟩ := h x hx
      exact ⟨h1, h2, h3.1, h4⟩) ho
    rw [show objs (xs.map fun x => (x.1, x.2.2)) = xs.map (·.1) from by simp [objs, List.map_map]] at this
    exact this

/-- C17 in a debug build is false: with a single child (also after a seek that leaves a single
child), the second call of `hasNext` runs into the assertion `isSorted` (compositeitr.cpp:32). -/
theorem C17_debug_assertion_violated :
    let o := Obj.composite msort [Obj.array [(1, 2), (3, 4)] (-1) (-1)]
    Composite.assertSorted (o.I.next (o.I.hasNext o.s).2 : Composite.St (FamSt _)) = false := by
  decide +kernel

/-! ## C18 -/

/-- C18: the difference of two sorted iterators returns exactly the pairs of the first that the
second does not have, in order.  (`fuel` bounds the loops of the model; any number larger than both
lengths will do.) -/
theorem C18_difference (k : Int) (a b : Obj) (ms rs : List Pair) (ha : a.Returns ms) (hb : b.Returns rs)
    (sm : Sorted ms) (sr : Sorted rs) (fuel : Nat) (lm : ms.length < fuel) (lr : rs.length < fuel) :
    (Obj.rm fuel (Rm.plain k k) a b).Returns (ms.filter fun p => decide (p ∉ rs)) :=
  rm_yields ha hb sm sr lm lr

/-- C18: seeking in the difference is correct at every reachable position, if it is correct in both
inputs. -/
theorem C18_seek (k : Int) (a b : Obj) (ms rs : List Pair) (ha : a.Returns ms) (hb : b.Returns rs)
    (sa : SeekOK a.I a.mv a.s ms) (sb : SeekOK b.I b.mv b.s rs)
    (sm : Sorted ms) (sr : Sorted rs) (fuel : Nat) (lm : ms.length < fuel) (lr : rs.length < fuel) :
    SeekOK (Obj.rm fuel (Rm.plain k k) a b).I (Obj.rm fuel (Rm.plain k k) a b).mv
      (Obj.rm fuel (Rm.plain k k) a b).s (ms.filter fun p => decide (p ∉ rs)) :=
  rm_seekOK ha hb sa sb sm sr lm lr

/-- Lexicographic order of (key, first value, second value). -/
def Triple.le (a b : Int × Int × Int) : Prop :=
  a.1 < b.1 ∨ (a.1 = b.1 ∧ (a.2.1 < b.2.1 ∨ (a.2.1 = b.2.1 ∧ a.2.2 ≤ b.2.2)))

/-- C18 for scans: the same for iterators over (key, first value, second value). -/
theorem C18_scan_difference {σ τ : Type} (M : Itr σ (Int × Int × Int)) (R : Itr τ (Int × Int × Int))
    (s : σ) (t : τ) (v0 : Int × Int × Int) (ms rs : List (Int × Int × Int)) (ha : Yields M s ms) (hb : Yields R t rs)
    (sm : ms.Pairwise Triple.le) (sr : rs.Pairwise Triple.le) (fuel : Nat) (lm : ms.length < fuel)
    (lr : rs.length < fuel) :
    Yields (Rm.itr M R Rm.scan fuel) (Rm.init R v0 s t) (ms.filter fun p => decide (p ∉ rs)) := by
  have hf : ms.filterMap (Rm.remain Rm.scan rs) = ms.filter fun p => decide (p ∉ rs) := by
    rw [← List.filterMap_eq_filter]
    congr 1
    funext p
    unfold Rm.remain
    have hpred : (fun r : Int × Int × Int => decide (Rm.scan.kr r = Rm.scan.km p)) = fun r => decide (r = p) := rfl
    simp only [hpred]
    cases hf : rs.find? (fun r => decide (r = p)) with
    | none =>
      have : p ∉ rs := fun hp => by
        have := List.find?_eq_none.1 hf p hp
        simp at this
      simp [Option.guard, this]
    | some r =>
      have h1 := List.find?_some hf
      have h2 := List.mem_of_find?_eq_some hf
      have : r = p := by simpa using h1
      subst this
      simp [Option.guard, Rm.scan, h2]
  have hk : ∀ l : List (Int × Int × Int), l.Pairwise Triple.le → Rm.SortedK (fun p => p) l := by
    intro l hl
    exact hl.imp fun {a b} h => by unfold Triple.le at h; simp only [lt3]; omega
  rw [← hf]
  exact (Rm.driver (yieldsDriver M (fun _ _ s => s) fun _ _ _ => true)
    (yieldsDriver R (fun _ _ s => s) fun _ _ _ => true) (fun x => x.elim) (fun x => x.elim)).yields
    (Rm.good_init ha hb (hk ms sm) (hk rs sr) lm lr)

/-- C18 with the second column ignored: if both inputs list the distinct first values of `ps` and `qs`
with their counts, the difference lists those of the pairs of `ps` not in `qs`.  The
deleted pairs must be among the stored ones (C23). -/
theorem C18_distinct (k : Int) (a b : Obj) (ps qs dm dr : List Pair) (ha : a.Returns dm) (hb : b.Returns dr)
    (hm : IsDistinct ps dm) (hr : IsDistinct qs dr) (hp : ps.Nodup) (hq : qs.Nodup) (hsub : ∀ q ∈ qs, q ∈ ps)
    (fuel : Nat) (lm : dm.length < fuel) (lr : dr.length < fuel) :
    ∃ out, (Obj.rm fuel (Rm.distinct k k) a b).Returns out ∧ IsDistinct (ps.filter fun p => decide (p ∉ qs)) out := by
  refine ⟨_, ?_, isDistinct_remain (k := k) hp hq hsub hm hr⟩
  have hk : ∀ {l : List Pair}, (l.map (·.1)).Pairwise (· < ·) → Rm.SortedK (fun p : Pair => (k, p.1, (0 : Int))) l := by
    intro l hl
    rw [List.pairwise_map] at hl
    exact hl.imp fun {a b} h => by simp only [lt3]; omega
  exact (Rm.driver (yieldsDriver a.I a.mv fun c1 c2 p => decide (Pair.le (c1, c2) p))
    (yieldsDriver b.I b.mv fun c1 c2 p => decide (Pair.le (c1, c2) p)) (fun x => x.elim) (fun x => x.elim)).yields
    (Rm.good_init ha hb (hk hm.1) (hk hr.1) lm lr)

/-- C18 is false for a seek right after `hasNext` (as in querier.cpp:709-713): the element found by `hasNext` is
returned although it is before the target. -/
theorem C18_seek_after_hasNext_violated :
    let o := Obj.rm 5 (Rm.plain 0 0) (Obj.array [(1, 1), (5, 5)] (-1) (-1)) (Obj.array [(9, 9)] (-1) (-1))
    Yields o.I (o.mv 5 5 (o.I.hasNext o.s).2) [(1, 1), (5, 5)] := by
  rw [yields_cons, yields_cons, yields_nil]
  decide +kernel

/-! ## The hypotheses are met -/

/-- Two arrays and an update in between: the merge. -/
example : (Obj.composite msort [Obj.array [(1, 2), (3, 4), (3, 6)] (-1) (-1), Obj.array [(1, 1), (3, 5)] (-1) (-1),
    Obj.array [(0, 9)] (-1) (-1)]).Returns [(0, 9), (1, 1), (1, 2), (3, 4), (3, 5), (3, 6)] := by
  obtain ⟨out, h1, h2, h3, -⟩ := C17_union msort msort_spec
    [(Obj.array [(1, 2), (3, 4), (3, 6)] (-1) (-1), [(1, 2), (3, 4), (3, 6)]),
     (Obj.array [(1, 1), (3, 5)] (-1) (-1), [(1, 1), (3, 5)]), (Obj.array [(0, 9)] (-1) (-1), [(0, 9)])] (by
      intro x hx
      simp only [List.mem_cons, List.not_mem_nil, or_false] at hx
      rcases hx with rfl | rfl | rfl
      · exact ⟨Arr.ready, Arr.yields_all (by decide) (by simp), by decide⟩
      · exact ⟨Arr.ready, Arr.yields_all (by decide) (by simp), by decide⟩
      · exact ⟨Arr.ready, Arr.yields_all (by decide) (by simp), by decide⟩)
  have e : out = [(0, 9), (1, 1), (1, 2), (3, 4), (3, 5), (3, 6)] := by
    refine (h3.trans (by decide)).eq_of_pairwise (le := Pair.le) ?_ h2 (by decide : Sorted _)
    intro a b _ _ g1 g2
    unfold Pair.le at *
    exact Prod.ext (by omega) (by omega)
  rw [← e]; exact h1

/-- The hypotheses of `C17_seek` hold for arrays. -/
example : ∃ out, SortedS out ∧ out.Perm [(1, 2), (3, 4), (1, 1), (3, 5)] ∧
    SeekOK (Obj.composite msort [Obj.array [(1, 2), (3, 4)] (-1) (-1), Obj.array [(1, 1), (3, 5)] (-1) (-1)]).I
      (Obj.composite msort [Obj.array [(1, 2), (3, 4)] (-1) (-1), Obj.array [(1, 1), (3, 5)] (-1) (-1)]).mv
      (Obj.composite msort [Obj.array [(1, 2), (3, 4)] (-1) (-1), Obj.array [(1, 1), (3, 5)] (-1) (-1)]).s out := by
  obtain ⟨out, h1, h2, h3, h4⟩ := C17_seek msort msort_spec
    [(Obj.array [(1, 2), (3, 4)] (-1) (-1), [(1, 2), (3, 4)]),
     (Obj.array [(1, 1), (3, 5)] (-1) (-1), [(1, 1), (3, 5)])] (by
      intro x hx
      simp only [List.mem_cons, List.not_mem_nil, or_false] at hx
      have key : ∀ l : List (Nat × Nat), l ≠ [] → Sorted (toI l) →
          (Obj.array l (-1) (-1)).Ready ∧ (Obj.array l (-1) (-1)).Returns (toI l) ∧ Sorted (toI l) ∧
          SeekOK (Obj.array l (-1) (-1)).I (Obj.array l (-1) (-1)).mv (Obj.array l (-1) (-1)).s (toI l) ∧
          (Obj.array l (-1) (-1)).Steady ∧ FailBelow (Obj.array l (-1) (-1)).I (Obj.array l (-1) (-1)).mv
            (Obj.array l (-1) (-1)).s := fun l h1 h2 =>
        ⟨Arr.ready, Arr.yields_all h2 h1, h2, (Arr.drv h2 (-1) (-1)).seekOK (Arr.good_all h2 h1 (-1)), Arr.steady,
          Arr.failBelow⟩
      rcases hx with rfl | rfl
      · exact key [(1, 2), (3, 4)] (by simp) (by decide)
      · exact key [(1, 1), (3, 5)] (by simp) (by decide)) (by decide)
  exact ⟨out, h2, h3, h4⟩

/-- The difference of two arrays, with its seeks. -/
example : SeekOK (Obj.rm 9 (Rm.plain 7 7) (Obj.array [(1, 2), (3, 4), (3, 6), (5, 0)] (-1) (-1))
      (Obj.array [(3, 4), (5, 0)] (-1) (-1))).I
    (Obj.rm 9 (Rm.plain 7 7) (Obj.array [(1, 2), (3, 4), (3, 6), (5, 0)] (-1) (-1))
      (Obj.array [(3, 4), (5, 0)] (-1) (-1))).mv
    (Obj.rm 9 (Rm.plain 7 7) (Obj.array [(1, 2), (3, 4), (3, 6), (5, 0)] (-1) (-1))
      (Obj.array [(3, 4), (5, 0)] (-1) (-1))).s [(1, 2), (3, 6)] := by
  have h1 : Sorted (toI [(1, 2), (3, 4), (3, 6), (5, 0)]) := by decide
  have h2 : Sorted (toI [(3, 4), (5, 0)]) := by decide
  exact C18_seek 7 _ _ _ _ (Arr.yields_all h1 (by simp)) (Arr.yields_all h2 (by simp))
    ((Arr.drv h1 (-1) (-1)).seekOK (Arr.good_all h1 (by simp) (-1)))
    ((Arr.drv h2 (-1) (-1)).seekOK (Arr.good_all h2 (by simp) (-1))) h1 h2 9 (by decide) (by decide)

end Trident
