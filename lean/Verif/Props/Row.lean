import Verif.Tables.RowProofs
/-!
# C05, C09, C10 and the row part of C13-C16

`Placed m a (Row.encode w1 w2 l)`: the table written for the pairs `l` is at address `a`
of an arbitrary memory.  `Row.Fits w1 w2 l`: every value fits its field (below `2^39`
for five bytes, see C01).  `toI l` is `l` with its ids as integers.
-/
namespace Trident

/-- C05: a full scan returns the stored pairs, in the stored order. -/
theorem C05_row_scan (w1 w2 : Width) (l : List (Nat × Nat)) (m : Mem) (a : Nat)
    (hfit : Row.Fits w1 w2 l) (h : Placed m a (Row.encode w1 w2 l)) :
    Yields (Row.itr w1 w2 m) (Row.setup a (a + (Row.encode w1 w2 l).length)) (toI l) := by
  have := Row.rowsAt_of_placed hfit h
  rw [Row.encode_length, ← toI_length]
  exact Row.setup_range.yields this

/-- C09: fixing the first value returns exactly the pairs with that first value, in order. -/
theorem C09_row_first_fixed (w1 w2 : Width) (l : List (Nat × Nat)) (m : Mem) (a : Nat)
    (hfit : Row.Fits w1 w2 l) (hs : Sorted (toI l)) (hne : l ≠ [])
    (h : Placed m a (Row.encode w1 w2 l)) (c1 : Int) :
    Yields (Row.itr w1 w2 m) (Row.setupC1 w1 w2 m c1 a (a + (Row.encode w1 w2 l).length))
      ((toI l).filter fun p => p.1 = c1) := by
  have := Row.rowsAt_of_placed hfit h
  rw [Row.encode_length, ← toI_length]
  exact (Row.setupC1_range this hs (by simpa [toI] using hne) c1).yields this

/-- C10: fixing both values returns the pair iff it is stored. -/
theorem C10_row_both_fixed (w1 w2 : Width) (l : List (Nat × Nat)) (m : Mem) (a : Nat)
    (hfit : Row.Fits w1 w2 l) (hs : SortedS (toI l)) (hne : l ≠ [])
    (h : Placed m a (Row.encode w1 w2 l)) (c1 c2 : Int) :
    Yields (Row.itr w1 w2 m) (Row.setupC12 w1 w2 m c1 c2 a (a + (Row.encode w1 w2 l).length))
      (if (c1, c2) ∈ toI l then [(c1, c2)] else []) := by
  have hr := Row.rowsAt_of_placed hfit h
  have := (Row.setupC12_range hr hs (by simpa [toI] using hne) c1 c2).yields hr
  rw [Row.encode_length, ← toI_length]
  rwa [filter_eq_singleton hs] at this

/-- The three ways to open a row-layout table: all of it, first value fixed, both fixed. -/
inductive Row.Opened (w1 w2 : Width) (m : Mem) (a e : Nat) : Row.St → Prop
  | all : Row.Opened w1 w2 m a e (Row.setup a e)
  | first (c1 : Int) : Row.Opened w1 w2 m a e (Row.setupC1 w1 w2 m c1 a e)
  | both (c1 c2 : Int) : Row.Opened w1 w2 m a e (Row.setupC12 w1 w2 m c1 c2 a e)

theorem Row.Opened.range {w1 w2 : Width} {l : List (Nat × Nat)} {m : Mem} {a : Nat} {s : Row.St}
    (hfit : Row.Fits w1 w2 l) (hs : SortedS (toI l)) (hne : l ≠ [])
    (h : Placed m a (Row.encode w1 w2 l))
    (ho : Row.Opened w1 w2 m a (a + (Row.encode w1 w2 l).length) s) :
    ∃ out, Row.Range w1 w2 a (toI l) s out := by
  have hr := Row.rowsAt_of_placed hfit h
  rw [Row.encode_length, ← toI_length] at ho
  have hne' : toI l ≠ [] := by simpa [toI] using hne
  cases ho with
  | all => exact ⟨_, Row.setup_range⟩
  | first c1 => exact ⟨_, Row.setupC1_range hr hs.sorted hne' c1⟩
  | both c1 c2 => exact ⟨_, Row.setupC12_range hr hs hne' c1 c2⟩

/-- C13 (row layout): however the table was opened, at every position reached by reading
and seeking, a seek returns exactly the not yet passed pairs that are `>=` the target. -/
theorem C13_row_seek (w1 w2 : Width) (l : List (Nat × Nat)) (m : Mem) (a : Nat) (s : Row.St)
    (hfit : Row.Fits w1 w2 l) (hs : SortedS (toI l)) (hne : l ≠ [])
    (h : Placed m a (Row.encode w1 w2 l))
    (ho : Row.Opened w1 w2 m a (a + (Row.encode w1 w2 l).length) s) (out : List Pair)
    (hy : Yields (Row.itr w1 w2 m) s out) :
    SeekOK (Row.itr w1 w2 m) (Row.moveto w1 w2 m) s out := by
  have hr := Row.rowsAt_of_placed hfit h
  obtain ⟨out', hout⟩ := ho.range hfit hs hne h
  rw [hy.unique (hout.yields hr)]
  exact hout.seekOK hr hs.sorted toI_nonneg

/-- C14 (row layout): reset replays what followed the mark. -/
theorem C14_row_mark_reset (w1 w2 : Width) (l : List (Nat × Nat)) (m : Mem) (a : Nat) (s : Row.St)
    (hfit : Row.Fits w1 w2 l) (hs : SortedS (toI l)) (hne : l ≠ [])
    (h : Placed m a (Row.encode w1 w2 l))
    (ho : Row.Opened w1 w2 m a (a + (Row.encode w1 w2 l).length) s) :
    ResetOK (Row.itr w1 w2 m) (Row.moveto w1 w2 m) Row.mark Row.reset s := by
  have hr := Row.rowsAt_of_placed hfit h
  obtain ⟨out', hout⟩ := ho.range hfit hs hne h
  exact hout.resetOK hr hs.sorted toI_nonneg

/-- C15 (row layout): with the second column ignored right after opening, each first value
is returned once, in order, with its number of pairs. -/
theorem C15_row_distinct (w1 w2 : Width) (l : List (Nat × Nat)) (m : Mem) (a : Nat)
    (hfit : Row.Fits w1 w2 l) (hs : Sorted (toI l)) (h : Placed m a (Row.encode w1 w2 l)) :
    ∃ out, IsDistinct (toI l) out ∧
      Yields (Row.itrD w1 w2 m) (Row.ignoreSecondColumn w1 w2 m
        (Row.setup a (a + (Row.encode w1 w2 l).length))) out := by
  have hr := Row.rowsAt_of_placed hfit h
  refine ⟨runs (toI l), isDistinct_runs (hs.imp fun h => by unfold Pair.le at h; omega), ?_⟩
  have := Row.yieldsD hr (Row.ignoreSecondColumn w1 w2 m
        (Row.setup a (a + (Row.encode w1 w2 l).length))) 0 (by omega)
        (by simp [Row.ignoreSecondColumn, Row.setup]) (by simp [Row.ignoreSecondColumn, Row.setup])
        (by simp [Row.ignoreSecondColumn, Row.setup, Row.encode_length])
  simpa using this

/-- C16 (row layout): the cardinality of a freshly opened iterator is the number of pairs
it returns. -/
theorem C16_row_cardinality (w1 w2 : Width) (l : List (Nat × Nat)) (m : Mem) (a : Nat) (s : Row.St)
    (hfit : Row.Fits w1 w2 l) (hs : SortedS (toI l)) (hne : l ≠ [])
    (h : Placed m a (Row.encode w1 w2 l))
    (ho : Row.Opened w1 w2 m a (a + (Row.encode w1 w2 l).length) s) (out : List Pair)
    (hy : Yields (Row.itr w1 w2 m) s out) :
    (Row.getCardinality w1 w2 m s).1 = (out.length : Int) := by
  have hr := Row.rowsAt_of_placed hfit h
  obtain ⟨out', hout⟩ := ho.range hfit hs hne h
  rw [hy.unique (hout.yields hr)]
  exact hout.card

/-- C16 (row layout, distinct mode): the value is the number of distinct first values. -/
theorem C16_row_cardinality_distinct (w1 w2 : Width) (l : List (Nat × Nat)) (m : Mem) (a : Nat)
    (hfit : Row.Fits w1 w2 l) (h : Placed m a (Row.encode w1 w2 l))
    (out : List Pair) (hd : IsDistinct (toI l) out) (hs : Sorted (toI l)) :
    (Row.getCardinality w1 w2 m (Row.ignoreSecondColumn w1 w2 m
        (Row.setup a (a + (Row.encode w1 w2 l).length)))).1 = (out.length : Int) := by
  have hr := Row.rowsAt_of_placed hfit h
  rw [hd.unique (isDistinct_runs (hs.imp fun h => by unfold Pair.le at h; omega))]
  have := Row.countDistinct_spec hr 0 (by omega) (-1) (-1) 0
  simp only [Row.getCardinality, Row.ignoreSecondColumn, Row.setup, Row.encode_length] at this ⊢
  simp only [toI_length, Nat.zero_mul, Nat.add_zero, List.drop_zero] at this
  simp only [ne_eq, not_true_eq_false, if_false, if_true]
  rw [this]
  cases hl : toI l with
  | nil => simp [runs]
  | cons q r =>
    have := @toI_nonneg1 l q (by simp [hl])
    simp only; rw [if_neg (by omega)]; omega

/-- C16 is false as an observation without effect: in distinct mode asking for the
cardinality moves the iterator to the end, so nothing is returned afterwards although
the table is not empty. -/
theorem C16_row_cardinality_distinct_consumes (w1 w2 : Width) (m : Mem) (s : Row.St)
    (hd : s.ign = true) :
    Yields (Row.itrD w1 w2 m) (Row.getCardinality w1 w2 m s).2 [] := by
  rw [yields_nil]
  simp only [Row.getCardinality, hd, Row.itrD, Row.hasNext, if_true, decide_eq_false_iff_not]
  omega

/-! ### Violations -/

/-- Four rows `(1,1) (2,2) (3,3) (4,4)` with one-byte fields, at address 0. -/
def rowMem1 : Mem := fun i => ([1, 1, 2, 2, 3, 3, 4, 4] : List UInt8).getD i 0

/-- C13 is false for a seek right after `reset`: read `(1,1)`, mark, read `(2,2)` and `(3,3)`,
reset, seek to `(3,0)`: the next pair returned is `(1,1)`, which is below the target
(`reset` restores the position but not the current values that `moveto` compares with). -/
theorem C13_row_seek_after_reset_violated :
    let I := Row.itr .b1 .b1 rowMem1
    let s0 := Row.setup 0 8
    let marked := Row.mark (I.next s0)
    let s := Row.moveto .b1 .b1 rowMem1 3 0 (Row.reset (I.next (I.next marked)))
    I.hasNext s = (true, s) ∧ I.val (I.next s) = (1, 1) := by
  simp [Row.itr, Row.setup, Row.mark, Row.reset, Row.next, Row.moveto, Row.hasNext, Row.r1, Row.r2,
    Row.blk, Width.size, Width.read, rdByte, ub, rowMem1]

/-- Three rows `(1,1) (1,2) (1,3)`. -/
def rowMem2 : Mem := fun i => ([1, 1, 1, 2, 1, 3] : List UInt8).getD i 0

/-- C15 is false after a seek in distinct mode: the only group has three pairs, and after
reading it and seeking to the same value it is reported with count 1. -/
theorem C15_row_seek_distinct_violated :
    let I := Row.itrD .b1 .b1 rowMem2
    let s0 := Row.ignoreSecondColumn .b1 .b1 rowMem2 (Row.setup 0 6)
    let s := Row.moveto .b1 .b1 rowMem2 1 0 (I.next s0)
    I.val (I.next s0) = (1, 3) ∧ I.hasNext s = (true, s) ∧ I.val (I.next s) = (1, 1) := by
  simp [Row.itrD, Row.setup, Row.ignoreSecondColumn, Row.next, Row.moveto, Row.hasNext, Row.r1,
    Row.skipEq, Row.blk, Width.size, Width.read, rdByte, ub, rowMem2]

/-- C15 is false when the second column is ignored after two reads of a group: the group of
three pairs is reported with count 2. -/
theorem C15_row_late_ignore_violated :
    let I := Row.itr .b1 .b1 rowMem2
    (Row.ignoreSecondColumn .b1 .b1 rowMem2 (I.next (I.next (Row.setup 0 6)))).count = 2 := by
  simp [Row.itr, Row.setup, Row.ignoreSecondColumn, Row.next, Row.r1, Row.r2,
    Row.skipEq, Row.blk, Width.size, Width.read, rdByte, ub, rowMem2]

/-! ### Non-vacuity: a concrete table that meets all hypotheses -/

/-- Three rows, two groups. -/
def rowEx : List (Nat × Nat) := [(1, 5), (1, 300), (4, 2)]

example : ∃ m, Placed m 3 (Row.encode .b1 .b2 rowEx) := exists_placed _ _
example : Row.Fits .b1 .b2 rowEx := by simp [Row.Fits, rowEx, Width.safe]
example : SortedS (toI rowEx) ∧ Sorted (toI rowEx) ∧ rowEx ≠ [] := by decide
example : (toI rowEx).filter (fun p => p.1 = 1) = [(1, 5), (1, 300)] := by decide
example (m : Mem) (h : Placed m 3 (Row.encode .b1 .b2 rowEx)) :
    Yields (Row.itr .b1 .b2 m) (Row.setupC12 .b1 .b2 m 1 300 3 (3 + (Row.encode .b1 .b2 rowEx).length))
      [(1, 300)] := by
  have := C10_row_both_fixed .b1 .b2 rowEx m 3 (by simp [Row.Fits, rowEx, Width.safe]) (by decide)
    (by decide) h 1 300
  rwa [if_pos (by decide)] at this
example : runs (toI rowEx) = [(1, 2), (4, 1)] := by decide

end Trident
