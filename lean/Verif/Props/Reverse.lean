import Verif.Iter.ArrayMore
import Verif.Props.Strat
/-!
# C22: tables that were not stored are rebuilt from their partner

The iterator over a rebuilt table is an `ArrayItr`; its mark/reset, distinct mode and cardinality
belong to C14, C15, C16.
-/
namespace Trident

/-- How the code passes an optional fixed value: -1 if it is free. -/
def argOf (c : Option Nat) : Int := match c with | none => -1 | some n => n

/-- The specification of `std::sort` on a vector of pairs of numbers. -/
def SortsPairs (sort : List (Nat × Nat) → List (Nat × Nat)) : Prop :=
  ∀ l, (sort l).Perm l ∧ (sort l).Pairwise fun a b => a.1 < b.1 ∨ (a.1 = b.1 ∧ a.2 ≤ b.2)

/-- Insertion into a sorted list of pairs. -/
def insertPair (x : Nat × Nat) : List (Nat × Nat) → List (Nat × Nat)
  | [] => [x]
  | y :: l => if x.1 < y.1 ∨ (x.1 = y.1 ∧ x.2 ≤ y.2) then x :: y :: l else y :: insertPair x l

/-- Insertion sort: a function meeting the specification of `std::sort`. -/
def isort : List (Nat × Nat) → List (Nat × Nat)
  | [] => []
  | x :: l => insertPair x (isort l)

theorem insertPair_perm (x l) : (insertPair x l).Perm (x :: l) := by
  induction l with
  | nil => exact .refl _
  | cons y l ih =>
    unfold insertPair
    split
    · exact .refl _
    · exact (ih.cons y).trans (.swap _ _ _)

theorem isort_sorts : SortsPairs isort := by
  intro l
  induction l with
  | nil => exact ⟨.refl _, .nil⟩
  | cons x l ih =>
    refine ⟨(insertPair_perm _ _).trans (ih.1.cons x), ?_⟩
    have key : ∀ l : List (Nat × Nat), l.Pairwise (fun a b => a.1 < b.1 ∨ (a.1 = b.1 ∧ a.2 ≤ b.2)) →
        (insertPair x l).Pairwise (fun a b => a.1 < b.1 ∨ (a.1 = b.1 ∧ a.2 ≤ b.2)) := by
      intro l hl
      induction l with
      | nil => simp [insertPair]
      | cons y l ih =>
        have hl' := List.pairwise_cons.1 hl
        unfold insertPair
        split
        · rename_i h
          refine List.pairwise_cons.2 ⟨fun z hz => ?_, hl⟩
          rcases List.mem_cons.1 hz with rfl | hz
          · exact h
          · have := hl'.1 z hz; omega
        · rename_i h
          refine List.pairwise_cons.2 ⟨fun z hz => ?_, ih hl'.2⟩
          rcases List.mem_cons.1 ((insertPair_perm x l).mem_iff.1 hz) with rfl | hz
          · omega
          · exact hl'.1 z hz
    exact key _ ih.2

theorem toI_sorted {l : List (Nat × Nat)} (h : l.Pairwise fun a b => a.1 < b.1 ∨ (a.1 = b.1 ∧ a.2 ≤ b.2)) :
    Sorted (toI l) := by
  unfold Sorted toI
  rw [List.pairwise_map]
  exact h.imp fun h => by simp only [Pair.le]; omega

theorem toI_reversed {ps : List Pair} (hpos : ∀ p ∈ ps, 0 ≤ p.1 ∧ 0 ≤ p.2) (v : Int) :
    toI (reversed v ps) = (ps.filter fun p => decide (v < 0) || p.2 == v).map fun p => (p.2, p.1) := by
  unfold toI reversed
  rw [List.map_map]
  apply List.map_congr_left
  intro p hp
  have := hpos p (List.mem_filter.1 hp).1
  simp only [Function.comp]
  rw [Int.toNat_of_nonneg this.2, Int.toNat_of_nonneg this.1]

theorem matching_swap (ps : List Pair) (c1 : Option Nat) :
    (ps.filter fun p => decide (argOf c1 < 0) || p.2 == argOf c1).map (fun p : Pair => (p.2, p.1)) =
      matching (ps.map fun p => (p.2, p.1)) (c1.map Int.ofNat) none := by
  unfold matching
  rw [List.filter_map]
  congr 1
  apply List.filter_congr
  intro p _
  cases c1 with
  | none => simp [argOf]
  | some c =>
    have h1 : ¬ ((c : Int) < 0) := by omega
    simp only [argOf, Function.comp, Option.map_some, h1, decide_false, Bool.false_or]
    rw [Bool.eq_iff_iff, beq_iff_eq, decide_eq_true_eq]
    exact ⟨fun h => ⟨Or.inr (by rw [h]; rfl), Or.inr (Or.inl trivial)⟩, fun h => by
      rcases h.1 with h | h
      · exact absurd h (by simp)
      · exact (Option.some.inj h).symm⟩

/-- C22: the table rebuilt from an iterator over the partner table has exactly the pairs of the
partner, reversed, that match the fixed values (the second value is only fixed together with the
first), in sorted order without additional repetitions, and seeks in it are correct. -/
theorem C22_reversed (sort) (hsort : SortsPairs sort) (old : Obj) (ps : List Pair) (hold : old.Returns ps)
    (hpos : ∀ p ∈ ps, 0 ≤ p.1 ∧ 0 ≤ p.2) (fuel : Nat) (hf : ps.length < fuel) (c1 c2 : Option Nat)
    (hc : c1 = none → c2 = none) :
    ∃ out, (Obj.onReverse sort fuel old (argOf c1) (argOf c2)).Returns out ∧ Sorted out ∧
      out.Perm (matching (ps.map fun p => (p.2, p.1)) (c1.map Int.ofNat) (c2.map Int.ofNat)) ∧
      (ps.Nodup → SortedS out) ∧
      SeekOK (Obj.onReverse sort fuel old (argOf c1) (argOf c2)).I (Obj.onReverse sort fuel old (argOf c1) (argOf c2)).mv
        (Obj.onReverse sort fuel old (argOf c1) (argOf c2)).s out := by
  have hdr : drain old.I fuel old.s = ps := drain_eq hold hf
  have hrev := toI_reversed hpos (argOf c1)
  rw [matching_swap] at hrev
  have hnd : ps.Nodup → (ps.map fun p => (p.2, p.1)).Nodup := fun h => by
    refine List.pairwise_map.2 (h.imp fun {a b} hab e => hab ?_)
    rw [Prod.mk.injEq] at e
    exact Prod.ext e.2 e.1
  unfold Obj.onReverse
  rw [hdr]
  simp only
  by_cases hl : (reversed (argOf c1) ps).length > 0
  · rw [if_pos hl]
    obtain ⟨hp, hso⟩ := hsort (reversed (argOf c1) ps)
    have hs := toI_sorted hso
    have hne : sort (reversed (argOf c1) ps) ≠ [] := by
      intro e; rw [e] at hp; have := hp.length_eq; simp at this; omega
    have hpt : (toI (sort (reversed (argOf c1) ps))).Perm
        (matching (ps.map fun p => (p.2, p.1)) (c1.map Int.ofNat) none) := by
      rw [← hrev]; exact hp.map _
    generalize hls : sort (reversed (argOf c1) ps) = ls at *
    -- the elements of the array have the fixed first value
    have key : ∃ out, (Arr.drv hs (argOf c1) (argOf c2)).Good (Arr.init ls (argOf c1) (argOf c2)) out ∧
        out.Perm (matching (ps.map fun p => (p.2, p.1)) (c1.map Int.ofNat) (c2.map Int.ofNat)) ∧ Sorted out := by
      cases c1 with
      | none =>
        have := hc rfl; subst this
        exact ⟨_, Arr.good_all hs hne _, hpt, hs⟩
      | some c =>
        have hall : ∀ p ∈ ls, p.1 = c := by
          intro p hp'
          have : ((p.1 : Int), (p.2 : Int)) ∈ toI ls := List.mem_map.2 ⟨p, hp', rfl⟩
          have := hpt.mem_iff.1 this
          simp [matching] at this
          omega
        cases c2 with
        | none =>
          have hex : ∃ p ∈ ls, p.1 = c := by
            cases ls with
            | nil => exact absurd rfl hne
            | cons p l => exact ⟨p, by simp, hall p (by simp)⟩
          refine ⟨_, Arr.good_c1 hs c hex, ?_, hs.sublist List.filter_sublist⟩
          rw [List.filter_eq_self.2]
          · exact hpt
          · intro p hp'
            obtain ⟨q, hq, rfl⟩ := List.mem_map.1 hp'
            simp [hall q hq]
        | some d =>
          refine ⟨_, Arr.good_c12 hs hne c d hall, ?_, hs.sublist List.filter_sublist⟩
          refine (hpt.filter _).trans (.of_eq ?_)
          unfold matching
          rw [List.filter_filter]
          apply List.filter_congr
          intro p _
          rw [Bool.eq_iff_iff]
          simp only [Bool.and_eq_true, beq_iff_eq, decide_eq_true_eq, Prod.ext_iff, Option.map_some, Option.some.injEq,
            Int.ofNat_eq_natCast]
          simp
          omega
    obtain ⟨out, h1, h2, h3⟩ := key
    refine ⟨out, (Arr.drv hs _ _).yields h1, h3, h2, fun hn => h3.strict (h2.nodup_iff.2 ((hnd hn).sublist List.filter_sublist)),
      (Arr.drv hs _ _).seekOK h1⟩
  · rw [if_neg hl]
    have hnil : matching (ps.map fun p => (p.2, p.1)) (c1.map Int.ofNat) none = [] := by
      rw [← hrev]
      have : reversed (argOf c1) ps = [] := List.length_eq_zero_iff.1 (by omega)
      rw [this]; rfl
    have hnil2 : matching (ps.map fun p => (p.2, p.1)) (c1.map Int.ofNat) (c2.map Int.ofNat) = [] := by
      rw [List.eq_nil_iff_forall_not_mem] at hnil ⊢
      intro p hp
      apply hnil p
      unfold matching at hp ⊢
      rw [List.mem_filter] at hp ⊢
      refine ⟨hp.1, ?_⟩
      have := hp.2
      rw [decide_eq_true_eq] at this ⊢
      exact ⟨this.1, Or.inr (Or.inl rfl)⟩
    rw [hnil2]
    refine ⟨[], .done rfl, .nil, .refl _, fun _ => .nil, ?_⟩
    intro s hr
    exfalso
    have : ∀ s, (Obj.empty.I.hasNext s).1 = false := fun _ => rfl
    cases hr with
    | first h => rw [this] at h; simp at h
    | next _ h => rw [this] at h; simp at h
    | seek _ _ _ h => rw [this] at h; simp at h

/-- C22 with the pattern of the query not a prefix (second value fixed, first free) is false: the
second value is ignored. -/
theorem C22_second_only_violated :
    (Obj.onReverse isort 9
      (Obj.array [(1, 5), (2, 6)] (-1) (-1)) (-1) 2).Returns [(5, 1), (6, 2)] := by
  unfold Obj.Returns
  rw [yields_cons, yields_cons, yields_nil]
  decide +kernel

/-! ## C14, C15, C16 on rebuilt tables -/

/-- C14: mark and reset on a rebuilt table, full scan. -/
theorem C14_array_scan (l : List (Nat × Nat)) (hs : Sorted (toI l)) (hne : l ≠ []) :
    ResetOK (Arr.itr l) (Arr.moveto l) Arr.mark Arr.reset (Arr.init l (-1) (-1)) :=
  Arr.resetOK hs (Arr.good_all hs hne (-1))

/-- C14: mark and reset on a rebuilt table, first value fixed. -/
theorem C14_array_first (l : List (Nat × Nat)) (hs : Sorted (toI l)) (c : Nat) (hc : ∃ p ∈ l, p.1 = c) :
    ResetOK (Arr.itr l) (Arr.moveto l) Arr.mark Arr.reset (Arr.init l c (-1)) :=
  Arr.resetOK hs (Arr.good_c1 hs c hc)

/-- C13 after a reset is false on rebuilt tables: the current value is not restored, so a seek
right after `reset` returns an element before the target. -/
theorem C13_array_seek_after_reset_violated :
    ¬ SeekAfterResetOK (Arr.itr [(1, 1), (5, 5), (6, 6)]) (Arr.moveto [(1, 1), (5, 5), (6, 6)]) Arr.mark Arr.reset
      (Arr.init [(1, 1), (5, 5), (6, 6)] (-1) (-1)) := by
  intro h
  have h1 := h _ (.first (by decide +kernel)) [(5, 5), (6, 6)] (by
    rw [yields_cons, yields_cons, yields_nil]; decide +kernel) [.next, .next] 6 6
  have h2 : Yields (Arr.itr [(1, 1), (5, 5), (6, 6)]) (Arr.moveto [(1, 1), (5, 5), (6, 6)] 6 6 (Arr.reset
      ([IOp.next, .next].foldl (runIOp (Arr.itr [(1, 1), (5, 5), (6, 6)]) (Arr.moveto [(1, 1), (5, 5), (6, 6)]))
        (Arr.mark ((Arr.itr [(1, 1), (5, 5), (6, 6)]).next ((Arr.itr [(1, 1), (5, 5), (6, 6)]).hasNext
          (Arr.init [(1, 1), (5, 5), (6, 6)] (-1) (-1))).2))))) [(1, 1), (5, 5), (6, 6)] := by
    rw [yields_cons, yields_cons, yields_cons, yields_nil]; decide +kernel
  have := h1.unique h2
  revert this
  decide +kernel

/-- C15: a rebuilt table with the second column ignored lists the distinct first values, each with
the number of pairs that have it. -/
theorem C15_array (l : List (Nat × Nat)) (hs : Sorted (toI l)) (hne : l ≠ []) :
    ∃ out, Yields (Arr.itrD l) (Arr.ignoreSecondColumn (Arr.init l (-1) (-1))) out ∧ IsDistinct (toI l) out :=
  ⟨_, (Arr.goodD_init hne).yields, isDistinct_runs (hs.imp fun h => by unfold Pair.le at h; omega)⟩

/-- C15 on rebuilt tables is false after a seek that stays on the current value, if its count has
been read: the count is 1. -/
theorem C15_array_seek_violated :
    let l := [(1, 1), (1, 2), (1, 3), (4, 4)]
    let s := (Arr.itrD l).next ((Arr.itrD l).hasNext (Arr.ignoreSecondColumn (Arr.init l (-1) (-1)))).2
    (Arr.itrD l).val s = (1, 3) ∧ Yields (Arr.itrD l) (Arr.moveto l 1 0 s) [(1, 1), (4, 1)] := by
  refine ⟨by decide +kernel, ?_⟩
  rw [yields_cons, yields_cons, yields_nil]; decide +kernel

/-- C16: on a rebuilt table the cardinality is the number of pairs (full scan) or of distinct first
values (second column ignored). -/
theorem C16_array (l : List (Nat × Nat)) (hs : Sorted (toI l)) (hne : l ≠ []) :
    (∃ out, Yields (Arr.itr l) (Arr.init l (-1) (-1)) out ∧
      Arr.getCardinality l (Arr.init l (-1) (-1)) = out.length) ∧
    (∃ out, Yields (Arr.itrD l) (Arr.ignoreSecondColumn (Arr.init l (-1) (-1))) out ∧
      Arr.getCardinality l (Arr.ignoreSecondColumn (Arr.init l (-1) (-1))) = out.length) := by
  refine ⟨⟨_, (Arr.drv hs (-1) (-1)).yields (Arr.good_all hs hne (-1)), by simp [Arr.getCardinality, Arr.init]⟩,
    ⟨_, (Arr.goodD_init hne).yields, ?_⟩⟩
  have hpos : ∀ p ∈ toI l, (0 : Int) ≤ p.1 := by
    intro p hp
    obtain ⟨q, -, rfl⟩ := List.mem_map.1 hp
    simp
  change Arr.cardLoop l (-1) 0 = _
  rw [Arr.cardLoop_eq l (-1) 0 hs (fun p hp => by have := hpos p hp; omega), Nat.zero_add]
  change _ = (runs (Arr.rem l 0)).length
  have : Arr.rem l 0 = toI l := rfl
  rw [this, List.filter_eq_self.2]
  intro q hq
  have hd := (isDistinct_runs (ps := toI l) (hs.imp fun h => by unfold Pair.le at h; omega))
  obtain ⟨x, hx, e⟩ := List.mem_map.1 ((hd.2.1 q.1).1 (List.mem_map.2 ⟨q, hq, rfl⟩))
  have := hpos x hx
  simp; omega

/-- C16 on rebuilt tables is false with both values fixed: the cardinality is the number of pairs
with the first value, whether or not the pair is there. -/
theorem C16_array_lookup_violated :
    let o := Obj.onReverse isort 9
      (Obj.array [(1, 5), (2, 5), (4, 5)] (-1) (-1)) 5 3
    o.Returns [] ∧ Arr.getCardinality [(5, 1), (5, 2), (5, 4)] (Arr.init [(5, 1), (5, 2), (5, 4)] 5 3) = 3 := by
  refine ⟨?_, by decide +kernel⟩
  unfold Obj.Returns
  rw [yields_nil]; decide +kernel

/-! ## The hypotheses are met -/

example : ∃ out, (Obj.onReverse isort 9
    (Obj.array [(1, 5), (2, 4), (2, 5), (3, 1)] (-1) (-1)) (argOf (some 5)) (argOf none)).Returns out ∧
    out.Perm [(5, 1), (5, 2)] := by
  have h : Sorted (toI [(1, 5), (2, 4), (2, 5), (3, 1)]) := by decide
  obtain ⟨out, h1, -, h2, -⟩ := C22_reversed _ isort_sorts _ _ (Arr.yields_all h (by simp)) (by decide) 9
    (by decide) (some 5) none (by simp)
  exact ⟨out, h1, h2.trans (by decide)⟩

example := C14_array_scan [(1, 5), (2, 4), (2, 5)] (by decide) (by simp)
example := C14_array_first [(1, 5), (2, 4), (2, 5)] (by decide) 2 ⟨(2, 4), by simp, rfl⟩
example := C15_array [(1, 5), (2, 4), (2, 5)] (by decide) (by simp)
example := C16_array [(1, 5), (2, 4), (2, 5)] (by decide) (by simp)

end Trident
