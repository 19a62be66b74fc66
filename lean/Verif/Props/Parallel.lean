import Verif.Parallel.Proofs
/-! # Parallel loops, the parallel sort and the queue: the properties -/
namespace Trident.Par

/-! ## C47 -/

/-- How many of the calls of the body get the number `i`. -/
def times (l : List (Nat × Nat)) (i : Nat) : Nat := l.countP fun r => decide (r.1 ≤ i ∧ i < r.2)

theorem times_covers (l : List (Nat × Nat)) (i : Nat) : times l i = l.countP (covers i) := by
  unfold times covers
  congr 1
  funext r
  simp

/-- **C47, partial.** A loop from 0 calls the body exactly once for each number below the end, and for no other.  Missing: loops that start
elsewhere, see below. -/
theorem C47_covers_partial (stop grain nthreads : Nat) (hn : 1 ≤ nthreads) (i : Nat) :
    times (calls 0 stop grain nthreads) i = if i < stop then 1 else 0 := by
  rw [times_covers]
  unfold calls
  by_cases hs : stop = 0
  · subst hs
    have : (chunks 0 (max grain ((0 - 0 + nthreads - 1) / nthreads)) nthreads 0 0) = ([], 0) := by
      cases nthreads with
      | zero => rfl
      | succ n => unfold chunks; simp
    simp only [this]
    simp [covers]
  · have hq : stop ≤ nthreads * ((stop - 0 + nthreads - 1) / nthreads) := by
      have h1 := Nat.div_add_mod (stop - 0 + nthreads - 1) nthreads
      have h2 := Nat.mod_lt (stop - 0 + nthreads - 1) (show nthreads > 0 by omega)
      omega
    have hm := Nat.le_max_right grain ((stop - 0 + nthreads - 1) / nthreads)
    have hd : 0 < max grain ((stop - 0 + nthreads - 1) / nthreads) := by
      have : 0 < (stop - 0 + nthreads - 1) / nthreads := Nat.div_pos (by omega) (by omega)
      omega
    have := chunks_cover (stop := stop) hd nthreads 0 0 (by omega) (by
      have := Nat.mul_le_mul_left nthreads hm
      omega) i
    simp only [this]
    simp

example : calls 0 100 60 4 = [(0, 60), (60, 100)] ∧ calls 0 10 1 3 = [(0, 4), (4, 8), (8, 10)] := by decide +kernel

/-- **C47 does not hold for loops that start after 0**: whatever the numbers, the body is also called with 0. -/
theorem C47_begin_violated {begin stop grain nthreads : Nat} (hb : 0 < begin) (he : begin < stop) (hn : 1 ≤ nthreads) :
    0 < times (calls begin stop grain nthreads) 0 := by
  unfold times calls
  obtain ⟨n, rfl⟩ : ∃ n, nthreads = n + 1 := ⟨nthreads - 1, by omega⟩
  have hd : 0 < max grain ((stop - begin + (n + 1) - 1) / (n + 1)) := by
    have : 0 < (stop - begin + (n + 1) - 1) / (n + 1) := Nat.div_pos (by omega) (by omega)
    omega
  generalize max grain ((stop - begin + (n + 1) - 1) / (n + 1)) = d at hd
  unfold chunks
  simp only
  rw [if_pos (by omega)]
  by_cases h : 0 + d ≥ stop
  · rw [if_pos h]
    refine List.countP_pos_iff.2 ⟨(0, stop), by simp, ?_⟩
    simp
    omega
  · rw [if_neg h]
    refine List.countP_pos_iff.2 ⟨(0, 0 + d), by simp, ?_⟩
    simp
    omega

/-- Such a loop can also call the body twice with the same numbers, from two threads: with two threads from 50 to 100, numbers 25 to 49. -/
theorem C47_twice_violated : calls 50 100 1 2 = [(0, 25), (25, 50), (25, 100)] ∧ times (calls 50 100 1 2) 30 = 2 := by decide +kernel

/-! ## C56 -/

/-- **C56.** Sorting with any number of threads gives a permutation of the input in which no element is less than an earlier one, for any strict weak
order and if `std::sort` does so. -/
theorem C56_sort {α : Type} {lt : α → α → Bool} {srt : List α → List α}
    (irrefl : ∀ x, lt x x = false) (trans : ∀ x y z, lt x y = true → lt y z = true → lt x z = true)
    (incomparable : ∀ x y z, (lt x y = false ∧ lt y x = false) → (lt y z = false ∧ lt z y = false) → (lt x z = false ∧ lt z x = false))
    (hs : ∀ l, (srt l).Perm l ∧ (srt l).Pairwise fun x y => lt y x = false) (nthreads : Int) (l : List α) :
    (sortInt srt lt nthreads l).Perm l ∧ (sortInt srt lt nthreads l).Pairwise fun x y => lt y x = false := by
  have as : ∀ {x y}, lt x y = true → lt y x = false := by
    intro x y h
    cases h' : lt y x with
    | false => rfl
    | true => have := trans x y x h h'; rw [irrefl] at this; cases this
  refine sortInt_spec ⟨as, ?_⟩ hs nthreads l
  intro x y z h1 h2
  cases h3 : lt z x with
  | false => rfl
  | true =>
    exfalso
    cases h4 : lt x y with
    | true => rw [trans z x y h3 h4] at h2; cases h2
    | false =>
      cases h5 : lt y z with
      | true => rw [trans y z x h5 h3] at h1; cases h1
      | false => have := (incomparable x y z ⟨h4, h1⟩ ⟨h5, h2⟩).2; rw [h3] at this; cases this

/-- The hypotheses hold for numbers and, as `std::sort`, merging one element after the other; with 1025 elements two threads are used. -/
def exSort (l : List Nat) : List Nat := l.foldr (fun x r => mergeBy (fun a b => decide (a < b)) [x] r) []

theorem exSort_spec (l : List Nat) : (exSort l).Perm l ∧ (exSort l).Pairwise fun x y => decide (y < x) = false := by
  induction l with
  | nil => simp [exSort]
  | cons x l ih =>
    refine ⟨(mergeBy_perm _ [x] _).trans (ih.1.cons x), mergeBy_sorted ⟨?_, ?_⟩ _ _ (by simp) ih.2⟩
    · intro a b h; simp at h ⊢; omega
    · intro a b c h h'; simp at h h' ⊢; omega

example (l : List Nat) (h : 1025 ≤ l.length) : sortInt exSort (fun a b => decide (a < b)) 2 l =
    mergeBy (fun a b => decide (a < b)) (exSort (l.take (l.length / 2))) (exSort (l.drop (l.length / 2))) := by
  unfold sortInt
  rw [if_neg (by omega)]
  unfold sortInt
  rw [if_pos (by omega), if_pos (by omega)]

example (l : List Nat) : (sortInt exSort (fun a b => decide (a < b)) 8 l).Perm l :=
  (C56_sort (by simp) (by intro x y z; simp; omega) (by intro x y z; simp; omega) exSort_spec 8 l).1

/-! ## C57 -/

/-- **C57, order.** For any number of consumers and any interleaving, what has been taken is the beginning of what has been pushed, and the rest is in
the queue: nothing is lost, given out twice or reordered. -/
theorem C57_fifo {α : Type} {n : Nat} {s : Q α} (h : Steps (Q.start α n) s) : s.pushed = s.taken ++ s.q := (steps_qinv h).fifo

/-- **C57, no lost wake-up.** If an element is in the queue, a consumer that waits for one is not left asleep: one that is not asleep can run and take it. -/
theorem C57_no_lost_wakeup {α : Type} {n : Nat} {s : Q α} (h : Steps (Q.start α n) s) (hw : At.asleep ∈ s.cs) (hq : s.q ≠ []) :
    ∃ c : Nat, s.cs[c]? = some At.woken ∧ ∃ t : Q α, Step s t ∧ t.cs[c]? = some At.out ∧ t.taken.length = s.taken.length + 1 := by
  have inv := steps_qinv h
  have h1 : 0 < sleepers s := List.countP_pos_iff.2 ⟨_, hw, by simp⟩
  have h2 := inv.awake h1
  cases e : s.q with
  | nil => exact absurd e hq
  | cons x r =>
    rw [e, List.length_cons] at h2
    obtain ⟨w, hm, hd⟩ := List.countP_pos_iff.1 (show 0 < wokens s by omega)
    simp at hd
    subst hd
    obtain ⟨c, hc, he⟩ := List.getElem_of_mem hm
    have hc' : s.cs[c]? = some .woken := by rw [List.getElem?_eq_getElem hc, he]
    exact ⟨c, hc', _, .take s x r c _ hc' e, by simp [List.getElem?_set_self hc], by simp⟩

/-- Two consumers fall asleep, two elements are pushed; only one consumer is woken if the second element comes after the first has been taken. -/
example : Steps (Q.start Nat 2) ⟨[5], [.woken, .asleep], [5], []⟩ :=
  .tail (.tail (.tail (.refl _) (.sleep _ 0 .out rfl rfl)) (.sleep _ 1 .out rfl rfl)) (.pushWake _ 5 0 rfl)

end Trident.Par
