import Verif.Tables.ClusterProofs
/-!
# C06, C11 and the cluster part of C13-C16

`Cluster.encode w1 w2 wc l` are the bytes the inserter writes for the pairs `l`
(`wc`: width of the group counter).  `Cluster.Fits`: values and group sizes fit.
-/
namespace Trident

/-- C06: a full scan returns the stored pairs, in the stored order. -/
theorem C06_cluster_scan (w1 w2 wc : Width) (l : List (Nat × Nat)) (m : Mem) (a : Nat)
    (hfit : Cluster.Fits w1 w2 wc l) (h : Placed m a (Cluster.encode w1 w2 wc l)) :
    Yields (Cluster.itr w1 w2 wc m) (Cluster.setup a (a + (Cluster.encode w1 w2 wc l).length))
      (toI l) := by
  have hg := Cluster.gAt_encode hfit h
  rw [Cluster.encode_length, ← ungroup_groups]
  have := (Cluster.setup_pos hg).yields (fun hx => absurd rfl hx)
  simpa [Cluster.rem] using this

/-- C11: fixing the first value returns exactly the pairs with that first value, in order. -/
theorem C11_cluster_first_fixed (w1 w2 wc : Width) (l : List (Nat × Nat)) (m : Mem) (a : Nat)
    (hfit : Cluster.Fits w1 w2 wc l) (hs : Sorted (toI l))
    (h : Placed m a (Cluster.encode w1 w2 wc l)) (c1 : Int) :
    Yields (Cluster.itr w1 w2 wc m)
      (Cluster.setupC1 w1 w2 wc m c1 a (a + (Cluster.encode w1 w2 wc l).length))
      ((toI l).filter fun p => p.1 = c1) := by
  have hg := Cluster.gAt_encode hfit h
  rw [Cluster.encode_length, ← ungroup_groups]
  obtain ⟨q, gs', e, h1, h2, _, _⟩ := Cluster.setupC1_spec hg (groups_keys hs) c1
  rw [e, ← h2]
  have := (Cluster.setup_pos h1).yields (fun hx => absurd rfl hx)
  simpa [Cluster.rem] using this

/-- C11: fixing both values returns the pair iff it is stored. -/
theorem C11_cluster_both_fixed (w1 w2 wc : Width) (l : List (Nat × Nat)) (m : Mem) (a : Nat)
    (hfit : Cluster.Fits w1 w2 wc l) (hs : SortedS (toI l))
    (h : Placed m a (Cluster.encode w1 w2 wc l)) (c1 c2 : Int) :
    Yields (Cluster.itr w1 w2 wc m)
      (Cluster.setupC12 w1 w2 wc m c1 c2 a (a + (Cluster.encode w1 w2 wc l).length))
      (if (c1, c2) ∈ toI l then [(c1, c2)] else []) := by
  have hg := Cluster.gAt_encode hfit h
  rw [Cluster.encode_length, ← ungroup_groups]
  rcases Cluster.setupC12_spec hg (groups_gsorted hs) c1 c2 with ⟨h1, h2, h3⟩ | ⟨h1, h2⟩
  · rw [if_pos h1]
    have := h2.yields (fun _ => by omega)
    simpa [Cluster.rem, ungroup] using this
  · rw [if_neg h1]; exact Cluster.rem_nil_yields h2

/-- The three ways to open a cluster-layout table. -/
inductive Cluster.Opened (w1 w2 wc : Width) (m : Mem) (a e : Nat) : Cluster.St → Prop
  | all : Cluster.Opened w1 w2 wc m a e (Cluster.setup a e)
  | first (c1 : Int) : Cluster.Opened w1 w2 wc m a e (Cluster.setupC1 w1 w2 wc m c1 a e)
  | both (c1 c2 : Int) : Cluster.Opened w1 w2 wc m a e (Cluster.setupC12 w1 w2 wc m c1 c2 a e)

theorem Cluster.Opened.good {w1 w2 wc : Width} {l : List (Nat × Nat)} {m : Mem} {a : Nat}
    {s : Cluster.St} (hfit : Cluster.Fits w1 w2 wc l) (hs : SortedS (toI l))
    (h : Placed m a (Cluster.encode w1 w2 wc l))
    (ho : Cluster.Opened w1 w2 wc m a (a + (Cluster.encode w1 w2 wc l).length) s) :
    ∃ out, Cluster.Good w1 w2 wc m s out := by
  have hg := Cluster.gAt_encode hfit h
  have hgs := groups_gsorted hs
  rw [Cluster.encode_length] at ho
  cases ho with
  | all =>
    exact ⟨_, .inl ⟨0, [], _, Cluster.setup_pos hg, fun hx => absurd rfl hx,
      fun hx => absurd rfl hx, hgs, rfl⟩⟩
  | first c1 =>
    obtain ⟨q, gs', e, h1, h2, h3, h4⟩ := Cluster.setupC1_spec hg hgs.keys c1
    rw [e]
    refine ⟨_, .inl ⟨0, [], _, Cluster.setup_pos h1, fun hx => absurd rfl hx,
      fun hx => absurd rfl hx, ⟨?_, fun g hx => hgs.vals g (h3 g hx), fun g hx => hgs.nonneg g (h3 g hx)⟩, rfl⟩⟩
    match gs', h4 with
    | [], _ => exact .nil
    | [_], _ => simp
  | both c1 c2 =>
    rcases Cluster.setupC12_spec hg hgs c1 c2 with ⟨h1, h2, h3⟩ | ⟨h1, h2⟩
    · refine ⟨_, .inl ⟨c1, [c2], [], h2, fun _ => by omega, fun _ => ⟨by simp, by simp, ?_⟩,
        ⟨.nil, by simp, by simp⟩, rfl⟩⟩
      intro g hg' v hv
      simp only [List.mem_singleton] at hg'; subst hg'
      simp only [List.mem_singleton] at hv; subst hv
      obtain ⟨g, hg', _, hv⟩ := mem_ungroup.1 h1
      exact hgs.nonneg g hg' _ hv
    · exact ⟨[], .inr ⟨h2, rfl⟩⟩

/-- C13 (cluster layout): however the table was opened, at every position reached by reading
and seeking, a seek returns exactly the not yet passed pairs that are `>=` the target. -/
theorem C13_cluster_seek (w1 w2 wc : Width) (l : List (Nat × Nat)) (m : Mem) (a : Nat)
    (s : Cluster.St) (hfit : Cluster.Fits w1 w2 wc l) (hs : SortedS (toI l))
    (h : Placed m a (Cluster.encode w1 w2 wc l))
    (ho : Cluster.Opened w1 w2 wc m a (a + (Cluster.encode w1 w2 wc l).length) s)
    (out : List Pair) (hy : Yields (Cluster.itr w1 w2 wc m) s out) :
    SeekOK (Cluster.itr w1 w2 wc m) (Cluster.moveto w1 w2 wc m) s out := by
  obtain ⟨out', hg⟩ := ho.good hfit hs h
  rw [hy.unique hg.yields]; exact hg.seekOK

/-- C13 (cluster layout): seeks are also right after a reset. -/
theorem C13_cluster_seek_after_reset (w1 w2 wc : Width) (l : List (Nat × Nat)) (m : Mem) (a : Nat)
    (s : Cluster.St) (hfit : Cluster.Fits w1 w2 wc l) (hs : SortedS (toI l))
    (h : Placed m a (Cluster.encode w1 w2 wc l))
    (ho : Cluster.Opened w1 w2 wc m a (a + (Cluster.encode w1 w2 wc l).length) s) :
    SeekAfterResetOK (Cluster.itr w1 w2 wc m) (Cluster.moveto w1 w2 wc m) Cluster.mark
      Cluster.reset s := by
  obtain ⟨out', hg⟩ := ho.good hfit hs h
  exact hg.seekAfterResetOK

/-- C14 (cluster layout): reset replays what followed the mark. -/
theorem C14_cluster_mark_reset (w1 w2 wc : Width) (l : List (Nat × Nat)) (m : Mem) (a : Nat)
    (s : Cluster.St) (hfit : Cluster.Fits w1 w2 wc l) (hs : SortedS (toI l))
    (h : Placed m a (Cluster.encode w1 w2 wc l))
    (ho : Cluster.Opened w1 w2 wc m a (a + (Cluster.encode w1 w2 wc l).length) s) :
    ResetOK (Cluster.itr w1 w2 wc m) (Cluster.moveto w1 w2 wc m) Cluster.mark Cluster.reset s := by
  obtain ⟨out', hg⟩ := ho.good hfit hs h
  exact hg.resetOK

/-- C15 (cluster layout): with the second column ignored, each first value is returned once,
in order, with its number of pairs; and seeking by first value is right too. -/
theorem C15_cluster_distinct (w1 w2 wc : Width) (l : List (Nat × Nat)) (m : Mem) (a : Nat)
    (hfit : Cluster.Fits w1 w2 wc l) (hs : Sorted (toI l))
    (h : Placed m a (Cluster.encode w1 w2 wc l)) :
    ∃ out, IsDistinct (toI l) out ∧
      Yields (Cluster.itrD w1 w2 wc m) (Cluster.ignoreSecondColumn w2
        (Cluster.setup a (a + (Cluster.encode w1 w2 wc l).length))) out ∧
      SeekOKD (Cluster.itrD w1 w2 wc m) (Cluster.moveto w1 w2 wc m) (Cluster.ignoreSecondColumn w2
        (Cluster.setup a (a + (Cluster.encode w1 w2 wc l).length))) out := by
  have hg := Cluster.gAt_encode hfit h
  have hk := groups_keys hs
  rw [Cluster.encode_length, ← ungroup_groups]
  have hp : Cluster.PosD w1 w2 wc m (Cluster.ignoreSecondColumn w2
      (Cluster.setup a (a + Cluster.gszs w1 w2 wc ((groups l).map grpI)))) ((groups l).map grpI) := by
    constructor <;> simp [Cluster.ignoreSecondColumn, Cluster.setup, hg]
  refine ⟨_, isDistinct_heads hk ?_, hp.yields, hp.seekOKD hk⟩
  intro g hx
  obtain ⟨x, hx', rfl⟩ := List.mem_map.1 hx
  simpa [grpI] using groups_ne hx'

/-- C16 (cluster layout): the cardinality of an iterator opened on the whole table or with the
first value fixed is the number of pairs it returns. -/
theorem C16_cluster_cardinality_partial (w1 w2 wc : Width) (l : List (Nat × Nat)) (m : Mem) (a : Nat)
    (s : Cluster.St) (hfit : Cluster.Fits w1 w2 wc l) (hs : Sorted (toI l))
    (h : Placed m a (Cluster.encode w1 w2 wc l))
    (ho : s = Cluster.setup a (a + (Cluster.encode w1 w2 wc l).length) ∨
      ∃ c1, s = Cluster.setupC1 w1 w2 wc m c1 a (a + (Cluster.encode w1 w2 wc l).length))
    (out : List Pair) (hy : Yields (Cluster.itr w1 w2 wc m) s out) :
    (Cluster.getCardinality w1 w2 wc m s).map (·.1) = some (out.length : Int) := by
  have hg := Cluster.gAt_encode hfit h
  have key : ∀ q gs, Cluster.GAt w1 w2 wc m q gs →
      Yields (Cluster.itr w1 w2 wc m) (Cluster.setup q (q + Cluster.gszs w1 w2 wc gs)) out →
      (Cluster.getCardinality w1 w2 wc m (Cluster.setup q (q + Cluster.gszs w1 w2 wc gs))).map (·.1)
        = some (out.length : Int) := by
    intro q gs h1 hy
    have := (Cluster.setup_pos h1).yields (fun hx => absurd rfl hx)
    rw [hy.unique this]
    obtain ⟨c', hc⟩ := Cluster.cardLoop_spec h1 0 0 (-1)
    simp [Cluster.getCardinality, Cluster.setup, hc, Cluster.rem]
  rw [Cluster.encode_length] at ho
  rcases ho with rfl | ⟨c1, rfl⟩
  · exact key _ _ hg hy
  · obtain ⟨q, gs', e, h1, _⟩ := Cluster.setupC1_spec hg (groups_keys hs) c1
    rw [e] at hy ⊢
    exact key _ _ h1 hy

/-- C16 (cluster layout, distinct mode): the cardinality is the number of distinct first values. -/
theorem C16_cluster_cardinality_distinct (w1 w2 wc : Width) (l : List (Nat × Nat)) (m : Mem) (a : Nat)
    (hfit : Cluster.Fits w1 w2 wc l) (hs : Sorted (toI l))
    (h : Placed m a (Cluster.encode w1 w2 wc l)) (out : List Pair) (hd : IsDistinct (toI l) out) :
    (Cluster.getCardinality w1 w2 wc m (Cluster.ignoreSecondColumn w2
        (Cluster.setup a (a + (Cluster.encode w1 w2 wc l).length)))).map (·.1)
      = some (out.length : Int) := by
  have hg := Cluster.gAt_encode hfit h
  have hk := groups_keys hs
  have hd2 := isDistinct_heads hk (fun g hx => by
    obtain ⟨x, hx', rfl⟩ := List.mem_map.1 hx
    simpa [grpI] using groups_ne hx')
  rw [ungroup_groups] at hd2
  rw [hd.unique hd2, Cluster.encode_length]
  obtain ⟨c', hc⟩ := Cluster.cardLoop_spec hg 0 0 (-1)
  simp [Cluster.getCardinality, Cluster.ignoreSecondColumn, Cluster.setup, hc, heads]

/-! ### Violations -/

/-- One group: first value 1, second values 5 and 9; one-byte fields, at address 0. -/
def clusterMem : Mem := fun i => ([1, 2, 5, 9] : List UInt8).getD i 0

/-- C16 is false for a lookup with both values fixed: `(1,9)` is returned once but the
cardinality is 2. -/
theorem C16_cluster_both_fixed_violated :
    (Cluster.getCardinality .b1 .b1 .b1 clusterMem
      (Cluster.setupC12 .b1 .b1 .b1 clusterMem 1 9 0 4)).map (·.1) = some 2 := by
  simp [Cluster.getCardinality, Cluster.setupC12, Cluster.find, Cluster.bsearch, Cluster.cardLoop,
    Cluster.setup, Cluster.rc, Width.size, Width.read, rdByte, ub, clusterMem]

/-- ... and for `(1,5)` the loop runs out of the table (undefined behaviour). -/
theorem C16_cluster_both_fixed_undefined :
    Cluster.getCardinality .b1 .b1 .b1 clusterMem
      (Cluster.setupC12 .b1 .b1 .b1 clusterMem 1 5 0 4) = none := by
  simp [Cluster.getCardinality, Cluster.setupC12, Cluster.find, Cluster.bsearch, Cluster.cardLoop,
    Cluster.setup, Cluster.rc, Width.size, Width.read, rdByte, ub, clusterMem]

/-- Asking a fresh iterator for its cardinality (2, which is right) breaks it: the next element
returned is `(-1, 1)` instead of `(1, 5)`. -/
theorem C16_cluster_cardinality_breaks_iterator :
    ∃ s, Cluster.getCardinality .b1 .b1 .b1 clusterMem (Cluster.setup 0 4) = some (2, s) ∧
      (Cluster.itr .b1 .b1 .b1 clusterMem).val (Cluster.next .b1 .b1 .b1 clusterMem s) = (-1, 1) ∧
      (Cluster.itr .b1 .b1 .b1 clusterMem).val
        (Cluster.next .b1 .b1 .b1 clusterMem (Cluster.setup 0 4)) = (1, 5) := by
  refine ⟨{ Cluster.setup 0 4 with count := 2, countgroup := 2 }, ?_, ?_, ?_⟩ <;>
  simp [Cluster.getCardinality, Cluster.cardLoop, Cluster.itr, Cluster.next,
    Cluster.setup, Cluster.rc, Width.size, Width.read, rdByte, ub, clusterMem]

/-! ### Non-vacuity -/

/-- Two groups, the first with two values. -/
def clusterEx : List (Nat × Nat) := [(1, 5), (1, 300), (4, 2)]

example : ∃ m, Placed m 3 (Cluster.encode .b1 .b2 .b1 clusterEx) := exists_placed _ _
example : Cluster.Fits .b1 .b2 .b1 clusterEx := by simp [Cluster.Fits, clusterEx, Width.safe]
example : SortedS (toI clusterEx) ∧ Sorted (toI clusterEx) := by decide
example : Cluster.encode .b1 .b2 .b1 clusterEx = [1, 2, 0, 5, 1, 44, 4, 1, 0, 2] := by decide

end Trident
