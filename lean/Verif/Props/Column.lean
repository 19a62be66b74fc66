import Verif.Tables.ColumnProofs
/-!
# C07, C12 and the column part of C13-C16

`Column.encode thr l` are the bytes the inserter writes for the pairs `l`, when it offloads
its buffers to the temporary file every `thr` elements.  `Column.Fits l`: the values and the
number of pairs are below 2^56 (7 bytes, the largest width the header can hold).
-/
namespace Trident

/-- Reading a table in memory starts in front of all its groups. -/
theorem Column.setup_good {thr : Nat} {l : List (Nat × Nat)} {m : Mem} {a : Nat}
    (hfit : Column.Fits l) (h : Placed m a (Column.encode thr l)) :
    ∃ L, Column.TabAt m L ((groups l).map grpI) ∧
      Column.Good L ((groups l).map grpI) (Column.setup m a (a + (Column.encode thr l).length))
        (ungroup ((groups l).map grpI)) ∧
      (Column.setup m a (a + (Column.encode thr l).length)).nTerms = l.length ∧
      (Column.setup m a (a + (Column.encode thr l).length)).nUnique = (groups l).length ∧
      Column.PosD L (Column.ignoreSecondColumn (Column.setup m a (a + (Column.encode thr l).length)))
        0 ((groups l).map grpI).length := by
  obtain ⟨L, h1, h2⟩ := Column.tabAt_of_placed hfit h
  refine ⟨L, h1, ?_, ?_, ?_, ?_⟩
  · rw [h2]
    refine .inr ⟨⟨rfl, rfl, rfl, rfl, rfl, ?_⟩, rfl, .inl ⟨0, ⟨Nat.zero_le _, rfl, ?_, ?_⟩, rfl⟩⟩
    · show L.p2 + l.length * L.b2 = _
      rw [List.length_map, Column.tot_map, Column.tot_groups]
    · simp
    · simp
  · rw [h2]
  · rw [h2]
  · rw [h2]
    constructor <;> simp [Column.ignoreSecondColumn]

/-- C07: a full scan returns the stored pairs, in the stored order. -/
theorem C07_column_scan (thr : Nat) (l : List (Nat × Nat)) (m : Mem) (a : Nat)
    (hfit : Column.Fits l) (h : Placed m a (Column.encode thr l)) :
    Yields (Column.itr m) (Column.setup m a (a + (Column.encode thr l).length)) (toI l) := by
  obtain ⟨L, h1, h2, _⟩ := Column.setup_good hfit h
  rw [← ungroup_groups]
  exact h2.yields h1

/-- C12: fixing the first value returns exactly the pairs with that first value, in order. -/
theorem C12_column_first_fixed (thr : Nat) (l : List (Nat × Nat)) (m : Mem) (a : Nat)
    (hfit : Column.Fits l) (hs : SortedS (toI l)) (h : Placed m a (Column.encode thr l)) (c1 : Int) :
    Yields (Column.itr m) (Column.setupC1 m c1 a (a + (Column.encode thr l).length))
      ((toI l).filter fun p => p.1 = c1) := by
  obtain ⟨L, h1, h2, _⟩ := Column.setup_good hfit h
  have hgs := groups_gsorted hs
  rw [← ungroup_groups]
  rcases Column.setupC1_spec h1 hgs h2 c1 with ⟨i, hi, q1, q2, _⟩ | ⟨q1, q2, _⟩
  · have := (Column.drvC1 h1 hgs i hi).yields (.inr ⟨0, q2, rfl⟩)
    subst q1
    rw [Column.filter_fst_found hgs hi rfl]
    exact this
  · rw [Column.filter_fst_none q1]; exact yields_nil.2 q2

/-- C12: fixing both values returns the pair iff it is stored. -/
theorem C12_column_both_fixed (thr : Nat) (l : List (Nat × Nat)) (m : Mem) (a : Nat)
    (hfit : Column.Fits l) (hs : SortedS (toI l)) (h : Placed m a (Column.encode thr l)) (c1 c2 : Int) :
    Yields (Column.itr m) (Column.setupC12 m c1 c2 a (a + (Column.encode thr l).length))
      (if (c1, c2) ∈ toI l then [(c1, c2)] else []) := by
  obtain ⟨L, h1, h2, _⟩ := Column.setup_good hfit h
  have hgs := groups_gsorted hs
  rw [← ungroup_groups]
  rcases Column.setupC12_spec h1 hgs h2 c1 c2 with ⟨q1, q2, _⟩ | ⟨q1, q2, _⟩
  · rw [if_pos q1]
    obtain ⟨g, hg, _, hv⟩ := mem_ungroup.1 q1
    exact (Column.drvC12 L m h1.hb2 (Column.B_pos h1) (c1, c2) (hgs.nonneg g hg _ hv)).yields (.inr ⟨q2, rfl⟩)
  · rw [if_neg q1]; exact yields_nil.2 q2

/-- C13 (column layout): on an iterator over the whole table, at every position reached by
reading and seeking, a seek returns exactly the not yet passed pairs that are `>=` the target. -/
theorem C13_column_seek (thr : Nat) (l : List (Nat × Nat)) (m : Mem) (a : Nat)
    (hfit : Column.Fits l) (hs : SortedS (toI l)) (h : Placed m a (Column.encode thr l)) :
    SeekOK (Column.itr m) (Column.moveto m) (Column.setup m a (a + (Column.encode thr l).length))
      (toI l) := by
  obtain ⟨L, h1, h2, _⟩ := Column.setup_good hfit h
  rw [← ungroup_groups]
  exact Driver.seekOK (Column.drv h1 (groups_gsorted hs)) h2

/-- C13 (column layout): same with both values fixed. -/
theorem C13_column_seek_both (thr : Nat) (l : List (Nat × Nat)) (m : Mem) (a : Nat)
    (hfit : Column.Fits l) (hs : SortedS (toI l)) (h : Placed m a (Column.encode thr l)) (c1 c2 : Int) :
    SeekOK (Column.itr m) (Column.moveto m)
      (Column.setupC12 m c1 c2 a (a + (Column.encode thr l).length))
      (if (c1, c2) ∈ toI l then [(c1, c2)] else []) := by
  obtain ⟨L, h1, h2, _⟩ := Column.setup_good hfit h
  have hgs := groups_gsorted hs
  rw [← ungroup_groups]
  rcases Column.setupC12_spec h1 hgs h2 c1 c2 with ⟨q1, q2, _⟩ | ⟨q1, q2, _⟩
  · rw [if_pos q1]
    obtain ⟨g, hg, _, hv⟩ := mem_ungroup.1 q1
    exact Driver.seekOK (Column.drvC12 L m h1.hb2 (Column.B_pos h1) (c1, c2) (hgs.nonneg g hg _ hv))
      (.inr ⟨q2, rfl⟩)
  · rw [if_neg q1]
    exact Driver.seekOK (Column.drvC12 L m h1.hb2 (Column.B_pos h1) (0, 0) (Int.le_refl _)) (.inl ⟨q2, rfl⟩)

/-- C13 (column layout, first value fixed), partial: right for all seeks except those that
go forward inside of the group (`c1` is the current first value and `c2` is beyond the current
second value).  For those see `C13_column_seek_first_violated`. -/
theorem C13_column_seek_first_partial (thr : Nat) (l : List (Nat × Nat)) (m : Mem) (a : Nat)
    (hfit : Column.Fits l) (hs : SortedS (toI l)) (h : Placed m a (Column.encode thr l)) (c1 : Int) :
    SeekOKOn (Column.itr m) (Column.moveto m) (fun s d1 d2 => ¬ (d1 = s.v1 ∧ s.v2 < d2))
      (Column.setupC1 m c1 a (a + (Column.encode thr l).length)) ((toI l).filter fun p => p.1 = c1) := by
  obtain ⟨L, h1, h2, _⟩ := Column.setup_good hfit h
  have hgs := groups_gsorted hs
  rw [← ungroup_groups]
  rcases Column.setupC1_spec h1 hgs h2 c1 with ⟨i, hi, q1, q2, _⟩ | ⟨q1, q2, _⟩
  · have := (Column.drvC1 h1 hgs i hi).seekOKOn (.inr ⟨0, q2, rfl⟩)
    subst q1
    rw [Column.filter_fst_found hgs hi rfl]
    exact this
  · rw [Column.filter_fst_none q1]
    intro s hr
    have : ∀ s, ReachedOn (Column.itr m) (Column.moveto m) (fun s d1 d2 => ¬ (d1 = s.v1 ∧ s.v2 < d2))
        (Column.setupC1 m c1 a (a + (Column.encode thr l).length)) s → False := by
      intro s hr
      induction hr with
      | first hn =>
        rw [show ((Column.itr m).hasNext (Column.setupC1 m c1 a (a + (Column.encode thr l).length))).1
          = Column.hasNext _ from rfl, q2] at hn
        simp at hn
      | next _ _ ih => exact ih
      | seek _ _ _ _ _ ih => exact ih
    exact (this s hr).elim

/-- C14 (column layout): reset replays what followed the mark, from any state whatsoever. -/
theorem C14_column_mark_reset (m : Mem) (s : Column.St) :
    ResetOK (Column.itr m) (Column.moveto m) Column.mark Column.reset s := by
  rintro s - rest hy ops
  rw [Column.reset_mark]
  exact (Column.Same.mark s).yields hy

/-- C13 (column layout): seeks are also right after a reset. -/
theorem C13_column_seek_after_reset (thr : Nat) (l : List (Nat × Nat)) (m : Mem) (a : Nat)
    (hfit : Column.Fits l) (hs : SortedS (toI l)) (h : Placed m a (Column.encode thr l)) :
    SeekAfterResetOK (Column.itr m) (Column.moveto m) Column.mark Column.reset
      (Column.setup m a (a + (Column.encode thr l).length)) := by
  obtain ⟨L, h1, h2, _⟩ := Column.setup_good hfit h
  intro s hr rest hy ops c1 c2
  rw [Column.reset_mark]
  let D := Column.drv h1 (groups_gsorted hs)
  obtain ⟨pre, e, rest', ⟨i, hi, j, hj, q1, q2, q3, q4⟩, _⟩ := D.reached h2 hr.on
  have hat : D.At s e rest' := ⟨i, hi, j, hj, q1, q2, q3, q4⟩
  have hat' : D.At (Column.mark s) e rest' :=
    ⟨i, hi, j, hj, ⟨q1.b1, q1.b2, q1.bc, q1.bo, q1.sp2, q1.stop⟩, q2,
      ⟨q3.sc, q3.count, q3.pos1, q3.sb2, q3.pos2, q3.v1, q3.v2⟩, q4⟩
  rw [D.val hat, hy.unique (D.yields (D.good hat))]
  exact D.yields (D.seek hat' c1 c2 trivial)

/-- C15 (column layout): with the second column ignored, each first value is returned once,
in order, with its number of pairs; and seeking by first value is right too. -/
theorem C15_column_distinct (thr : Nat) (l : List (Nat × Nat)) (m : Mem) (a : Nat)
    (hfit : Column.Fits l) (hs : Sorted (toI l)) (h : Placed m a (Column.encode thr l)) :
    ∃ out, IsDistinct (toI l) out ∧
      Yields (Column.itrD m) (Column.ignoreSecondColumn
        (Column.setup m a (a + (Column.encode thr l).length))) out ∧
      SeekOKD (Column.itrD m) (Column.moveto m) (Column.ignoreSecondColumn
        (Column.setup m a (a + (Column.encode thr l).length))) out := by
  obtain ⟨L, h1, _, _, _, h3⟩ := Column.setup_good hfit h
  have hk := groups_keys hs
  rw [← ungroup_groups]
  let D := Column.drvD h1 hk
  have hg : D.Good _ (heads ((groups l).map grpI)) := ⟨0, h3, rfl⟩
  exact ⟨_, isDistinct_heads hk h1.ne, D.yields hg, DriverD.seekOKD D hg⟩

/-- C16 (column layout), partial: the cardinality of an iterator over the whole table, and of a
lookup that finds something, is the number of pairs it returns.  For lookups that find nothing
see `C16_column_failed_lookup_violated`. -/
theorem C16_column_cardinality_partial (thr : Nat) (l : List (Nat × Nat)) (m : Mem) (a : Nat)
    (hfit : Column.Fits l) (hs : SortedS (toI l)) (h : Placed m a (Column.encode thr l))
    (s : Column.St) (ho : s = Column.setup m a (a + (Column.encode thr l).length) ∨
      (∃ c1, s = Column.setupC1 m c1 a (a + (Column.encode thr l).length)) ∨
      (∃ c1 c2, s = Column.setupC12 m c1 c2 a (a + (Column.encode thr l).length)))
    (out : List Pair) (hy : Yields (Column.itr m) s out)
    (hne : out ≠ [] ∨ s = Column.setup m a (a + (Column.encode thr l).length)) :
    Column.getCardinality s = out.length := by
  obtain ⟨L, h1, h2, h3, _⟩ := Column.setup_good hfit h
  have hgs := groups_gsorted hs
  have hign0 : (Column.setup m a (a + (Column.encode thr l).length)).ign = false := rfl
  have hall : Column.getCardinality (Column.setup m a (a + (Column.encode thr l).length)) = l.length := by
    unfold Column.getCardinality; rw [hign0, h3]; rfl
  rcases ho with rfl | ⟨c1, rfl⟩ | ⟨c1, c2, rfl⟩
  · rw [hy.unique (C07_column_scan thr l m a hfit h), hall, toI_length]
  · rcases Column.setupC1_spec h1 hgs h2 c1 with ⟨i, hi, q1, q2, q3, _⟩ | ⟨q1, q2, q3⟩
    · have := (Column.drvC1 h1 hgs i hi).yields (.inr ⟨0, q2, rfl⟩)
      rw [hy.unique this]
      simp [Column.getCardinality, q2.ign, q3, Column.remC1]
    · have : out = [] := hy.unique (yields_nil.2 q2)
      rcases hne with hne | hne
      · exact absurd this hne
      · rw [hne] at hy ⊢
        rw [hy.unique (C07_column_scan thr l m a hfit h), hall, toI_length]
  · rcases Column.setupC12_spec h1 hgs h2 c1 c2 with ⟨q1, q2, q3⟩ | ⟨q1, q2, q3⟩
    · obtain ⟨g, hg, _, hv⟩ := mem_ungroup.1 q1
      have := (Column.drvC12 L m h1.hb2 (Column.B_pos h1) (c1, c2) (hgs.nonneg g hg _ hv)).yields
        (.inr ⟨q2, rfl⟩)
      rw [hy.unique this]
      simp [Column.getCardinality, q2.ign, q3]
    · have : out = [] := hy.unique (yields_nil.2 q2)
      rcases hne with hne | hne
      · exact absurd this hne
      · rw [hne] at hy ⊢
        rw [hy.unique (C07_column_scan thr l m a hfit h), hall, toI_length]

/-- C16 (column layout, distinct mode): the cardinality is the number of distinct first values. -/
theorem C16_column_cardinality_distinct (thr : Nat) (l : List (Nat × Nat)) (m : Mem) (a : Nat)
    (hfit : Column.Fits l) (hs : Sorted (toI l)) (h : Placed m a (Column.encode thr l))
    (out : List Pair) (hd : IsDistinct (toI l) out) :
    Column.getCardinality (Column.ignoreSecondColumn
      (Column.setup m a (a + (Column.encode thr l).length))) = out.length := by
  obtain ⟨L, h1, _, _, h4, h3⟩ := Column.setup_good hfit h
  have hd2 := isDistinct_heads (groups_keys hs) h1.ne
  rw [ungroup_groups] at hd2
  rw [hd.unique hd2]
  unfold Column.getCardinality
  rw [h3.ign, if_pos rfl]
  have : (Column.ignoreSecondColumn (Column.setup m a (a + (Column.encode thr l).length))).nUnique
    = (Column.setup m a (a + (Column.encode thr l).length)).nUnique := by
    unfold Column.ignoreSecondColumn; split <;> rfl
  rw [this, h4]; simp [heads]

/-! ### Violations -/

/-- The table of the pairs (1,5), (1,9), (2,7), placed at address 0. -/
def columnEx : List (Nat × Nat) := [(1, 5), (1, 9), (2, 7)]
def columnMem : Mem := fun i =>
  ([9, 9, 2, 3, 1, 2, 0, 2, 1, 2, 5, 9, 7] : List UInt8).getD i 0

example : Placed columnMem 0 (Column.encode 100 columnEx) := by
  rw [show Column.encode 100 columnEx = [9, 9, 2, 3, 1, 2, 0, 2, 1, 2, 5, 9, 7] by decide +kernel]
  intro i hi
  simp only [columnMem, Nat.zero_add, List.getD_eq_getElem?_getD, List.getElem?_eq_getElem hi, Option.getD_some]

/-- C13 is false with the first value fixed: open with first value 1, read (1,5), seek (1,9):
the iterator returns (1,9), and then also (1,7), which is not in the table. -/
theorem C13_column_seek_first_violated :
    Yields (Column.itr columnMem)
      (Column.moveto columnMem 1 9 (Column.next columnMem
        (Column.setupC1 columnMem 1 0 13)))
      [(1, 9), (1, 7)] := by
  rw [yields_cons, yields_cons, yields_nil]
  decide +kernel

/-- C16 is false for a lookup that finds nothing: the cardinality is that of the whole table. -/
theorem C16_column_failed_lookup_violated :
    Yields (Column.itr columnMem)
      (Column.setupC1 columnMem 3 0 13) [] ∧
    Column.getCardinality
      (Column.setupC1 columnMem 3 0 13) = 3 := by
  rw [yields_nil]
  decide +kernel

/-! ### Non-vacuity -/

example : ∃ m, Placed m 3 (Column.encode 2 columnEx) := exists_placed _ _
example : Column.Fits columnEx := by simp [Column.Fits, columnEx]
example : SortedS (toI columnEx) ∧ Sorted (toI columnEx) := by decide

end Trident
