import Verif.Sparql.Union
import Verif.Sparql.AlgebraSpec
/-! # Lemmas about the union of two sorted lists -/
namespace Trident.Sparql.MergeUnion
open Spec

theorem times_nil (v : Nat) : times [] v = 0 := rfl
theorem times_cons (x : Nat × Nat) (l : List (Nat × Nat)) (v : Nat) : times (x :: l) v = (if x.2 = v then x.1 else 0) + times l v := by simp [times]
theorem times_append (l l' : List (Nat × Nat)) (v : Nat) : times (l ++ l') v = times l v + times l' v := by simp [times]

theorem bag_one (c x v : Nat) (l : List Row) : bag ((c, [x]) :: l) [v] = (if x = v then c else 0) + bag l [v] := by
  rw [bag_cons]; simp

/-- The rows that still have to be returned, apart from a repetition. -/
def owed (s : MU) : List (Nat × Nat) :=
  match s.st with
  | .done => []
  | .stepLeft => (s.rightCount, s.rightValue) :: (s.left ++ s.right)
  | .stepRight => (s.leftCount, s.leftValue) :: (s.left ++ s.right)
  | .stepBoth => s.left ++ s.right
  | .leftEmpty => s.right
  | .rightEmpty => s.left

def active (s : MU) : Nat :=
  match s.st with
  | .stepLeft | .stepRight | .stepBoth => 1
  | _ => 0

def size (s : MU) : Nat := s.left.length + s.right.length + active s

/-- A repetition is the row of the right side with the last value of the left side. -/
def Extra (s : MU) (e : List (Nat × Nat)) : Prop :=
  e.length ≤ 1 ∧ ∀ x ∈ e, x ∈ (s.rightCount, s.rightValue) :: s.right ∧ (s.leftValue :: s.left.map (·.2)).getLast? = some x.2

theorem Extra.nil (s : MU) : Extra s [] := ⟨by simp, fun x h => by cases h⟩

/-- After a comparison the values say which step is next. -/
def Coherent (s : MU) : Prop := s.st = .stepBoth → s.leftValue = s.rightValue

def Good (s : MU) : Prop :=
  ∃ l e, Runs next s l ∧ Extra s e ∧ (∀ r ∈ l, ∃ x, r.2 = [x]) ∧ ∀ v, bag l [v] = times (owed s) v + times e v

/-- `Good` for a step that returns a row. -/
theorem good_emit {s s' : MU} {c x : Nat} (hs : next s = .emit (c, [x]) s') (hg : Good s')
    (he : ∀ e, Extra s' e → Extra s e) (hb : ∀ v, times (owed s) v = (if x = v then c else 0) + times (owed s') v) : Good s := by
  obtain ⟨l, e, h1, h2, h3, h4⟩ := hg
  refine ⟨(c, [x]) :: l, e, .emit hs h1, he e h2, ?_, ?_⟩
  · intro r hr
    rcases List.mem_cons.1 hr with rfl | hr
    · exact ⟨x, rfl⟩
    · exact h3 r hr
  · intro v
    rw [bag_one, h4, hb]; omega

theorem getLast_tail {a : Nat} {l : List Nat} {b y : Nat} (h : (b :: l).getLast? = some y) : (a :: b :: l).getLast? = some y := by
  rw [List.getLast?_cons]
  rw [h]; rfl

/-- A comparison of two rows that both still have to be returned. -/
theorem handle_good {s p : MU} (hn : next s = handle p) (ih : ∀ s', Coherent s' → size s' ≤ p.left.length + p.right.length + 1 → Good s')
    (he : ∀ e, Extra p e → Extra s e)
    (hb : ∀ v, times (owed s) v = (if p.leftValue = v then p.leftCount else 0) + (if p.rightValue = v then p.rightCount else 0) + times (p.left ++ p.right) v) : Good s := by
  unfold handle at hn
  split at hn
  · rename_i h
    refine good_emit hn (ih _ (by intro h; cases h) (by simp [size, active])) (fun e h => he e h) ?_
    intro v
    rw [hb]
    simp only [owed, times_cons]
    omega
  · split at hn
    · refine good_emit hn (ih _ (by intro h; cases h) (by simp [size, active])) (fun e h => he e h) ?_
      intro v
      rw [hb]
      simp only [owed, times_cons]
      omega
    · rename_i h1 h2
      have heq : p.leftValue = p.rightValue := by omega
      refine good_emit hn (ih _ (fun _ => heq) (by simp [size, active])) (fun e h => he e h) ?_
      intro v
      rw [hb]
      simp only [owed, heq]
      split <;> omega

theorem leftEmpty_runs : ∀ (n : Nat) (t : MU), t.st = .leftEmpty → t.right.length ≤ n → ∃ l, Runs next t l ∧ (∀ r ∈ l, ∃ x, r.2 = [x]) ∧ ∀ v, bag l [v] = times t.right v := by
  intro n
  induction n with
  | zero =>
    intro t ht hl
    have : t.right = [] := List.eq_nil_of_length_eq_zero (by omega)
    exact ⟨[], .stop (by rw [next, ht]; simp only [this]), by simp, fun v => by rw [this]; rfl⟩
  | succ n ihn =>
    intro t ht hl
    match htr : t.right with
    | [] => exact ⟨[], .stop (by rw [next, ht]; simp only [htr]), by simp, fun v => rfl⟩
    | q :: qs =>
      obtain ⟨l, a1, a2, a3⟩ := ihn { t with right := qs, rightCount := q.1 } ht (by rw [htr] at hl; simpa using hl)
      refine ⟨(q.1, [q.2]) :: l, .emit (by rw [next, ht]; simp only [htr]) a1, ?_, ?_⟩
      · intro r hr
        rcases List.mem_cons.1 hr with rfl | hr
        · exact ⟨_, rfl⟩
        · exact a2 r hr
      · intro v
        rw [bag_one, a3, times_cons]

theorem rightEmpty_runs : ∀ (n : Nat) (t : MU), t.st = .rightEmpty → t.left.length ≤ n → ∃ l, Runs next t l ∧ (∀ r ∈ l, ∃ x, r.2 = [x]) ∧ ∀ v, bag l [v] = times t.left v := by
  intro n
  induction n with
  | zero =>
    intro t ht hl
    have : t.left = [] := List.eq_nil_of_length_eq_zero (by omega)
    exact ⟨[], .stop (by rw [next, ht]; simp only [this]), by simp, fun v => by rw [this]; rfl⟩
  | succ n ihn =>
    intro t ht hl
    match htr : t.left with
    | [] => exact ⟨[], .stop (by rw [next, ht]; simp only [htr]), by simp, fun v => rfl⟩
    | q :: qs =>
      obtain ⟨l, a1, a2, a3⟩ := ihn { t with left := qs, leftCount := q.1 } ht (by rw [htr] at hl; simpa using hl)
      refine ⟨(q.1, [q.2]) :: l, .emit (by rw [next, ht]; simp only [htr]) a1, ?_, ?_⟩
      · intro r hr
        rcases List.mem_cons.1 hr with rfl | hr
        · exact ⟨_, rfl⟩
        · exact a2 r hr
      · intro v
        rw [bag_one, a3, times_cons]

theorem good : ∀ n s, Coherent s → size s ≤ n → Good s := by
  intro n
  induction n with
  | zero =>
    intro s _ hs
    have h1 : s.left = [] := List.eq_nil_of_length_eq_zero (by unfold size at hs; omega)
    have h2 : s.right = [] := List.eq_nil_of_length_eq_zero (by unfold size at hs; omega)
    have h3 : active s = 0 := by unfold size at hs; omega
    refine ⟨[], [], .stop ?_, Extra.nil s, by simp, ?_⟩
    · unfold next
      cases hst : s.st <;> simp only [hst, active] at h3 ⊢
      all_goals first | contradiction | simp [h1, h2]
    · intro v
      cases hst : s.st <;> simp only [hst, active, owed] at h3 ⊢
      all_goals first | contradiction | simp [h1, h2, bag, times]
  | succ n ih =>
    intro s hc hs
    -- the case of `stepRight` after a row of the left side
    have right : ∀ p : MU, next s = stepRight p → p.st ≠ .stepLeft → p.left.length + p.right.length ≤ n → (∀ e, Extra p e → Extra s e) →
        (∀ v, times (owed s) v = (if p.leftValue = v then p.leftCount else 0) + times (p.left ++ p.right) v) → Good s := by
      intro p hn hst hsz he hb
      unfold stepRight at hn
      rw [if_pos hst] at hn
      match hr : p.right with
      | [] =>
        rw [hr] at hn
        refine good_emit hn (ih _ (by intro h; cases h) ?_) (fun e h => he e ⟨h.1, fun x hx => by have := h.2 x hx; rw [hr]; exact this⟩) ?_
        · simp only [size, active, hr, List.length_nil]; rw [hr] at hsz; simpa using hsz
        · intro v
          rw [hb, hr]
          simp [owed]
      | r :: rs =>
        rw [hr] at hn
        refine handle_good hn (fun s' h1 h2 => ih s' h1 ?_) ?_ ?_
        · simp only at h2; rw [hr] at hsz; simp only [List.length_cons] at hsz; omega
        · intro e h
          refine he e ⟨h.1, fun x hx => ⟨?_, (h.2 x hx).2⟩⟩
          have := (h.2 x hx).1
          rw [hr]
          exact List.mem_cons_of_mem _ this
        · intro v
          rw [hb, hr]
          simp only [times_append, times_cons]
          omega
    match hst : s.st with
    | .done => exact ⟨[], [], .stop (by unfold next; rw [hst]), Extra.nil s, by simp, fun v => by simp [owed, hst, bag, times]⟩
    | .stepRight =>
      refine right s (by rw [next, hst]) (by rw [hst]; decide) (by simp only [size, active, hst] at hs; omega) (fun e h => h) ?_
      intro v
      simp [owed, hst, times_cons]
    | .leftEmpty =>
      match hr : s.right with
      | [] => exact ⟨[], [], .stop (by rw [next, hst]; simp only [hr]), Extra.nil s, by simp, fun v => by simp [owed, hst, bag, times, hr]⟩
      | r :: rs =>
        obtain ⟨l, a1, a2, a3⟩ := leftEmpty_runs _ s hst (Nat.le_refl _)
        exact ⟨l, [], a1, Extra.nil s, a2, fun v => by rw [a3]; simp [owed, hst, times_nil]⟩
    | .rightEmpty =>
      match hl : s.left with
      | [] => exact ⟨[], [], .stop (by rw [next, hst]; simp only [hl]), Extra.nil s, by simp, fun v => by simp [owed, hst, bag, times, hl]⟩
      | q :: qs =>
        obtain ⟨l, a1, a2, a3⟩ := rightEmpty_runs _ s hst (Nat.le_refl _)
        exact ⟨l, [], a1, Extra.nil s, a2, fun v => by rw [a3]; simp [owed, hst, times_nil]⟩
    | .stepLeft =>
      match hl : s.left with
      | [] =>
        have hn : next s = .emit (s.rightCount, [s.rightValue]) { s with st := .leftEmpty } := by rw [next, hst]; simp only [hl]
        refine good_emit hn (ih _ (by intro h; cases h) (by simp only [size, active, hst] at hs ⊢; omega)) (fun e h => h) ?_
        intro v
        simp [owed, hst, hl, times_cons]
      | l :: ls =>
        have hn : next s = handle { s with left := ls, leftCount := l.1, leftValue := l.2 } := by
          rw [next, hst]; simp only [hl]; rw [stepRight, if_neg (by simp [hst])]
        refine handle_good hn (fun s' h1 h2 => ih s' h1 ?_) ?_ ?_
        · simp only [size, active, hst, hl, List.length_cons] at hs h2 ⊢; omega
        · intro e h
          refine ⟨h.1, fun x hx => ⟨(h.2 x hx).1, ?_⟩⟩
          rw [hl, List.map_cons]
          exact getLast_tail (h.2 x hx).2
        · intro v
          simp only [owed, hst, hl, times_cons, times_append]
          omega
    | .stepBoth =>
      match hl : s.left with
      | [] =>
        have hn : next s = .emit (s.rightCount, [s.rightValue]) { s with st := .leftEmpty } := by rw [next, hst]; simp only [hl]
        obtain ⟨l, a1, a2, a3⟩ := leftEmpty_runs _ { s with st := .leftEmpty } rfl (Nat.le_refl _)
        refine ⟨(s.rightCount, [s.rightValue]) :: l, [(s.rightCount, s.rightValue)], .emit hn a1, ⟨by simp, ?_⟩, ?_, ?_⟩
        · intro x hx
          rw [List.mem_singleton] at hx
          subst hx
          exact ⟨by simp, by rw [hl]; simp [hc hst]⟩
        · intro r hr
          rcases List.mem_cons.1 hr with rfl | hr
          · exact ⟨_, rfl⟩
          · exact a2 r hr
        · intro v
          rw [bag_one, a3]
          simp [owed, hst, hl, times_cons, times_nil]
          omega
      | l :: ls =>
        refine right { s with left := ls, leftCount := l.1, leftValue := l.2 } (by rw [next, hst]; simp only [hl]) (by simp [hst]) ?_ ?_ ?_
        · simp only [size, active, hst, hl, List.length_cons] at hs ⊢; omega
        · intro e h
          refine ⟨h.1, fun x hx => ⟨(h.2 x hx).1, ?_⟩⟩
          rw [hl, List.map_cons]
          exact getLast_tail (h.2 x hx).2
        · intro v
          simp only [owed, hst, hl, times_cons, times_append]
          omega

/-! ## The order -/

/-- All values are at least `b`. -/
def Above (b : Nat) (l : List (Nat × Nat)) : Prop := ∀ x ∈ l, b ≤ x.2

/-- The sorted rest of a side. -/
def Sorted (l : List (Nat × Nat)) : Prop := l.Pairwise fun x y => x.2 ≤ y.2

/-- The rows that are still to come are sorted and at least `b`. -/
def SInv (b : Nat) (s : MU) : Prop :=
  match s.st with
  | .done => True
  | .stepLeft => Sorted s.left ∧ Above b s.left ∧ b ≤ s.rightValue ∧ Sorted s.right ∧ Above s.rightValue s.right
  | .stepRight => Sorted s.right ∧ Above b s.right ∧ b ≤ s.leftValue ∧ Sorted s.left ∧ Above s.leftValue s.left
  | .stepBoth => Sorted s.left ∧ Above b s.left ∧ b ≤ s.rightValue ∧ Sorted s.right ∧ Above s.rightValue s.right
  | .leftEmpty => Sorted s.right ∧ Above b s.right
  | .rightEmpty => Sorted s.left ∧ Above b s.left

theorem Above.mono {b c : Nat} {l : List (Nat × Nat)} (h : Above c l) (hbc : b ≤ c) : Above b l := fun x hx => Nat.le_trans hbc (h x hx)

theorem sorted_cons {x : Nat × Nat} {l : List (Nat × Nat)} (h : Sorted (x :: l)) : Sorted l ∧ Above x.2 l := by
  have := List.pairwise_cons.1 h
  exact ⟨this.2, this.1⟩

/-- A row with the value `x` is returned, and the rest is sorted. -/
def Emits (b : Nat) : Step MU → Prop
  | .stop => True
  | .go _ => False
  | .emit r s => ∃ x, r.2 = [x] ∧ b ≤ x ∧ SInv x s

theorem handle_sorted {b : Nat} {p : MU} (h1 : b ≤ p.leftValue) (h2 : b ≤ p.rightValue) (h3 : Sorted p.left) (h4 : Sorted p.right) (h5 : Above p.leftValue p.left)
    (h6 : Above p.rightValue p.right) : Emits b (handle p) := by
  unfold handle
  split
  · exact ⟨_, rfl, h1, h3, h5, by simp only; omega, h4, h6⟩
  · split
    · exact ⟨_, rfl, h2, h4, h6, by simp only; omega, h3, h5⟩
    · exact ⟨_, rfl, h1, h3, h5, by simp only; omega, h4, h6⟩

theorem stepRight_sorted {b : Nat} {p : MU} (hst : p.st ≠ .stepLeft) (h1 : b ≤ p.leftValue) (h2 : Above b p.right) (h3 : Sorted p.left) (h4 : Sorted p.right)
    (h5 : Above p.leftValue p.left) : Emits b (stepRight p) := by
  unfold stepRight
  rw [if_pos hst]
  match hr : p.right with
  | [] => exact ⟨_, rfl, h1, h3, h5⟩
  | r :: rs =>
    rw [hr] at h2 h4
    exact handle_sorted h1 (h2 r (by simp)) h3 (sorted_cons h4).1 h5 (sorted_cons h4).2

theorem next_sorted {b : Nat} {s : MU} (h : SInv b s) : Emits b (next s) := by
  unfold next
  match hst : s.st with
  | .done => exact trivial
  | .stepLeft =>
    simp only [SInv, hst] at h
    match hl : s.left with
    | [] => exact ⟨_, rfl, h.2.2.1, h.2.2.2⟩
    | l :: ls =>
      rw [hl] at h
      simp only [stepRight, ne_eq, not_true_eq_false, if_false]
      exact handle_sorted (h.2.1 l (by simp)) h.2.2.1 (sorted_cons h.1).1 h.2.2.2.1 (sorted_cons h.1).2 h.2.2.2.2
  | .stepBoth =>
    simp only [SInv, hst] at h
    match hl : s.left with
    | [] => exact ⟨_, rfl, h.2.2.1, h.2.2.2⟩
    | l :: ls =>
      rw [hl] at h
      exact stepRight_sorted (by simp) (h.2.1 l (by simp)) (h.2.2.2.2.mono h.2.2.1) (sorted_cons h.1).1 h.2.2.2.1 (sorted_cons h.1).2
  | .stepRight =>
    simp only [SInv, hst] at h
    exact stepRight_sorted (by simp [hst]) h.2.2.1 h.2.1 h.2.2.2.1 h.1 h.2.2.2.2
  | .leftEmpty =>
    simp only [SInv, hst] at h
    match hr : s.right with
    | [] => exact trivial
    | r :: rs =>
      rw [hr] at h
      exact ⟨_, rfl, h.2 r (by simp), (sorted_cons h.1).1, (sorted_cons h.1).2⟩
  | .rightEmpty =>
    simp only [SInv, hst] at h
    match hl : s.left with
    | [] => exact trivial
    | l :: ls =>
      rw [hl] at h
      exact ⟨_, rfl, h.2 l (by simp), (sorted_cons h.1).1, (sorted_cons h.1).2⟩

theorem runs_sorted {s : MU} {l : List Row} (hr : Runs next s l) : ∀ b, SInv b s →
    (∀ r ∈ l, ∃ x, r.2 = [x] ∧ b ≤ x) ∧ l.Pairwise fun r r' => ∃ x y, r.2 = [x] ∧ r'.2 = [y] ∧ x ≤ y := by
  induction hr with
  | stop _ => exact fun b _ => ⟨by simp, .nil⟩
  | go e _ _ =>
    intro b h
    have := next_sorted h
    rw [e] at this; cases this
  | @emit s s' r l e _ ih =>
    intro b h
    have := next_sorted h
    rw [e] at this
    obtain ⟨x, h1, h2, h3⟩ := this
    obtain ⟨a1, a2⟩ := ih x h3
    refine ⟨?_, List.pairwise_cons.2 ⟨?_, a2⟩⟩
    · intro q hq
      rcases List.mem_cons.1 hq with rfl | hq
      · exact ⟨x, h1, h2⟩
      · obtain ⟨y, b1, b2⟩ := a1 q hq
        exact ⟨y, b1, by omega⟩
    · intro q hq
      obtain ⟨y, b1, b2⟩ := a1 q hq
      exact ⟨x, y, h1, b1, b2⟩

end Trident.Sparql.MergeUnion
