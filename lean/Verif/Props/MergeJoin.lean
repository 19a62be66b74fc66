import Verif.Sparql.MergeProofs
import Verif.Sparql.JoinSpec
import Verif.Props.HashJoin
/-!
# C70: merge joins

A join of two inputs sorted by the join variable returns every pair of rows that agree on it, as often as the product of their multiplicities says, and
nothing else, although the scans below skip rows.  With OPTIONAL the rows without partner are returned as well.
-/
namespace Trident.Sparql.Merge
open Hash (null)

theorem bag_join_eq_J (left right : List Row) (hl : ∀ l ∈ left, l.2 ≠ []) (hr : ∀ r ∈ right, r.2 ≠ []) (t : Tup) :
    bag (Spec.join left right) t = J left right t := by
  induction right with
  | nil => rw [J_nil_right]; rfl
  | cons r right ih =>
    rw [Spec.join, List.flatMap_cons, bag_append, J_cons_right]
    refine congr (congrArg _ ?_) (ih fun x hx => hr x (List.mem_cons_of_mem _ hx))
    clear ih
    induction left with
    | nil => rfl
    | cons l left ih =>
      rw [J_cons_left, ← ih fun x hx => hl x (List.mem_cons_of_mem _ hx), J_single, pr, List.filter_cons]
      by_cases h : Spec.agree l.2 r.2 = true
      · have hk := (Hash.agree_iff (hl l (by simp)) (hr r (by simp))).1 h
        rw [if_pos h, List.map_cons, bag_cons]
        congr 1
        by_cases ht : l.2 ++ r.2 = t
        · rw [if_pos ht, if_pos ⟨hk, ht⟩]
        · rw [if_neg ht, if_neg fun x => ht x.2]
      · rw [if_neg h, if_neg, Nat.zero_add]
        intro x
        exact h ((Hash.agree_iff (hl l (by simp)) (hr r (by simp))).2 x.1)

theorem join_good (e : Env) (hlo : e.lo = false) (hro : e.ro = false) (left right : List Row)
    (hleft : ∀ l ∈ left, l.2 ≠ [] ∧ l.1 ≠ 0) (hright : ∀ r ∈ right, r.2 ≠ [] ∧ r.1 ≠ 0)
    (sleft : left.Pairwise fun a b => col a.2 0 ≤ col b.2 0) (sright : right.Pairwise fun a b => col a.2 0 ≤ col b.2 0) :
    ∃ out, Returns e left right out ∧ (∀ t, bag out t = bag (Spec.join left right) t) ∧ Good out := by
  have hj := bag_join_eq_J left right (fun l hl => (hleft l hl).1) (fun r hr => (hright r hr).1)
  match left, right with
  | [], [] => exact ⟨[], rfl, fun t => by rw [hj]; rfl, by simp, by simp⟩
  | [], y :: rs =>
    refine ⟨[], ?_, fun t => by rw [hj]; rfl, by simp, by simp⟩
    unfold Returns first
    rw [hlo]; rfl
  | x :: ls, [] =>
    refine ⟨[], ?_, fun t => by rw [hj, J_nil_right]; rfl, by simp, by simp⟩
    unfold Returns first
    rw [hro]; rfl
  | x :: ls, y :: rs =>
    obtain ⟨out, h1, h2, h3⟩ := inner_runs_good e hlo hro _ _ _ _ (Inv.has (a := { st := .scanHasBoth, l := x, r := y, lsh := (0, []), rsh := (0, []), ls := ls, rs := rs, buf := [], bi := [], inCopy := false })
      rfl ⟨sleft, fun l hl => (hleft l hl).2⟩ ⟨sright, fun l hl => (hright l hl).2⟩)
    exact ⟨out, h1, fun t => by rw [h2, hj], h3⟩

/-- **C70 (inner join).** For all inputs that are sorted by the join variable, whatever rows their scans skip and whatever an exhausted input leaves in the
registers, the join ends and returns the pairs that agree, with their multiplicities. -/
theorem C70_join (e : Env) (hlo : e.lo = false) (hro : e.ro = false) (left right : List Row)
    (hleft : ∀ l ∈ left, l.2 ≠ [] ∧ l.1 ≠ 0) (hright : ∀ r ∈ right, r.2 ≠ [] ∧ r.1 ≠ 0)
    (sleft : left.Pairwise fun a b => col a.2 0 ≤ col b.2 0) (sright : right.Pairwise fun a b => col a.2 0 ≤ col b.2 0) :
    ∃ out, Returns e left right out ∧ ∀ t, bag out t = bag (Spec.join left right) t :=
  let ⟨out, h1, h2, _⟩ := join_good e hlo hro left right hleft hright sleft sright
  ⟨out, h1, h2⟩

/-- There is one list of rows that the operator returns. -/
theorem Returns.unique {e : Env} {left right out out' : List Row} (h : Returns e left right out) (h' : Returns e left right out') : out = out' := by
  unfold Returns at h h'
  split at h
  · rename_i h1; rw [h1] at h'; rw [h, h']
  · rename_i h1; rw [h1] at h'; exact h.unique h'
  · rename_i h1; rw [h1] at h'
    obtain ⟨l, h2, h3⟩ := h
    obtain ⟨l', h4, h5⟩ := h'
    rw [h3, h5, h2.unique h4]

/-- **C70 (order).** The rows that the join returns are sorted by the join variable again, so that another merge join can read them, and no row has the number 0, which
would be taken for the end. -/
theorem C70_order (e : Env) (hlo : e.lo = false) (hro : e.ro = false) (left right : List Row)
    (hleft : ∀ l ∈ left, l.2 ≠ [] ∧ l.1 ≠ 0) (hright : ∀ r ∈ right, r.2 ≠ [] ∧ r.1 ≠ 0)
    (sleft : left.Pairwise fun a b => col a.2 0 ≤ col b.2 0) (sright : right.Pairwise fun a b => col a.2 0 ≤ col b.2 0)
    (out : List Row) (h : Returns e left right out) :
    (out.Pairwise fun a b => col a.2 0 ≤ col b.2 0) ∧ ∀ r ∈ out, r.1 ≠ 0 := by
  obtain ⟨out', h1, _, h3, h4⟩ := join_good e hlo hro left right hleft hright sleft sright
  rw [h.unique h1]
  exact ⟨h4, h3⟩

/-- **C70 (skipping).** The rows that the scans skip make no difference to the result. -/
theorem C70_skipping (e : Env) (hlo : e.lo = false) (hro : e.ro = false) (left right : List Row)
    (hleft : ∀ l ∈ left, l.2 ≠ [] ∧ l.1 ≠ 0) (hright : ∀ r ∈ right, r.2 ≠ [] ∧ r.1 ≠ 0)
    (sleft : left.Pairwise fun a b => col a.2 0 ≤ col b.2 0) (sright : right.Pairwise fun a b => col a.2 0 ≤ col b.2 0)
    (out out' : List Row) (h : Returns e left right out) (h' : Returns { e with hl := fun _ => false, hr := fun _ => false } left right out') :
    ∀ t, bag out t = bag out' t := by
  obtain ⟨o1, a1, b1⟩ := C70_join e hlo hro left right hleft hright sleft sright
  obtain ⟨o2, a2, b2⟩ := C70_join { e with hl := fun _ => false, hr := fun _ => false } hlo hro left right hleft hright sleft sright
  intro t
  rw [h.unique a1, h'.unique a2, b1, b2]

/-! ## Examples -/

/-- Inner join of sides with two registers, over scans that skip in every third call. -/
def exEnv : Env := { lo := false, ro := false, wl := 2, wr := 2, jl := [77, 77], jr := [88, 88], hl := everyThird, hr := everyThird }

def exL : List Row := [(1, [1, 10]), (2, [3, 30]), (1, [3, 31]), (1, [4, 40]), (1, [6, 60]), (1, [6, 61]), (1, [8, 80]), (1, [9, 90])]

def exR : List Row := [(1, [2, 200]), (1, [3, 300]), (5, [3, 301]), (1, [6, 600]), (1, [7, 700]), (1, [8, 800]), (1, [8, 801])]

example : ∃ out, Returns exEnv exL exR out ∧ ∀ t, bag out t = bag (Spec.join exL exR) t :=
  C70_join exEnv rfl rfl exL exR (by decide +kernel) (by decide +kernel) (by decide +kernel) (by decide +kernel)

def exOut : List Row := [(2, [3, 30, 3, 300]), (10, [3, 30, 3, 301]), (1, [3, 31, 3, 300]), (5, [3, 31, 3, 301]), (1, [6, 60, 6, 600]), (1, [6, 61, 6, 600]),
  (1, [8, 80, 8, 800]), (1, [8, 80, 8, 801])]

example : Returns exEnv exL exR exOut := runs_of_runFor 50 (by decide +kernel)

example := C70_skipping exEnv rfl rfl exL exR (by decide +kernel) (by decide +kernel) (by decide +kernel) (by decide +kernel) exOut exOut
  (runs_of_runFor 50 (by decide +kernel)) (runs_of_runFor 50 (by decide +kernel))

example := C70_order exEnv rfl rfl exL exR (by decide +kernel) (by decide +kernel) (by decide +kernel) (by decide +kernel) exOut (runs_of_runFor 50 (by decide +kernel))

/-! ## What the code does otherwise -/

/-- OPTIONAL on the right, without skipping, with one register on the left and two on the right. -/
def exOpt : Env := { lo := false, ro := true, wl := 1, wr := 2, jl := [77], jr := [88, 88] }

/-- The left row 6 has no partner, but it is lost: it is in the shadow when the right side ends within a block. -/
theorem C70_optional_block_violated :
    ∃ out, Returns exOpt [(1, [5]), (1, [6]), (1, [7])] [(1, [5, 1]), (1, [5, 2])] out ∧ bag out [6, null, null] = 0 ∧ bag out [7, null, null] = 1 ∧
      [6] ∈ (Spec.unmatched [(1, [5]), (1, [6]), (1, [7])] [(1, [5, 1]), (1, [5, 2])]).map (·.2) :=
  ⟨[(1, [5, 5, 1]), (1, [5, 5, 2]), (1, [7, null, null])], runs_of_runFor 20 (by decide +kernel), by decide +kernel⟩

/-- The same when both sides have several rows with the last value of the right side. -/
theorem C70_optional_buffer_violated :
    ∃ out, Returns exOpt [(1, [5]), (1, [5]), (1, [6]), (1, [7])] [(1, [5, 1]), (1, [5, 2])] out ∧ bag out [6, null, null] = 0 ∧ bag out [7, null, null] = 1 :=
  ⟨[(1, [5, 5, 1]), (1, [5, 5, 2]), (1, [5, 5, 1]), (1, [5, 5, 2]), (1, [7, null, null])], runs_of_runFor 30 (by decide +kernel), by decide +kernel⟩

/-- Scans that skip lose the rows without partner: of the left rows 1, 2 and 3 only the first is returned. -/
theorem C70_optional_skipping_violated :
    ∃ out, Returns { exOpt with hl := everyThird } [(1, [1]), (1, [2]), (1, [3]), (1, [9])] [(1, [9, 1])] out ∧
      bag out [1, null, null] = 1 ∧ bag out [2, null, null] = 0 ∧ bag out [3, null, null] = 0 :=
  ⟨[(1, [1, null, null]), (1, [9, 9, 1])], runs_of_runFor 20 (by decide +kernel), by decide +kernel⟩

theorem stuck_step (a : MJ) (h1 : a.st = .scanStepRight) (h2 : a.l = (1, [2 ^ 32])) (h3 : a.rs = []) :
    ∃ b : MJ, step exOpt a = .go b ∧ b.st = .scanStepRight ∧ b.l = (1, [2 ^ 32]) ∧ b.rs = [] := by
  have hn : MJ.nextRight exOpt a = { a with r := (0, [88, 88]), rs := [], nr := a.nr + 1 } := by
    unfold MJ.nextRight
    rw [h3]; rfl
  unfold step
  rw [h1]
  dsimp only
  rw [hn, stepRightWith, if_pos rfl, if_pos (by rfl)]
  unfold compare
  rw [if_neg (by show ¬ key a.l < null; rw [h2]; decide +kernel), if_pos (by show key a.l > null; rw [h2]; decide +kernel), if_neg (by decide)]
  exact ⟨_, rfl, rfl, h2, rfl⟩

theorem stuck (a : MJ) (out : List Row) (h : Runs (step exOpt) a out) (h1 : a.st = .scanStepRight) (h2 : a.l = (1, [2 ^ 32])) (h3 : a.rs = []) : False := by
  induction h with
  | stop e => obtain ⟨b, hb, _⟩ := stuck_step _ h1 h2 h3; rw [e] at hb; cases hb
  | go e _ ih =>
    obtain ⟨b, hb, b1, b2, b3⟩ := stuck_step _ h1 h2 h3
    rw [e] at hb; cases hb
    exact ih b1 b2 b3
  | emit e => obtain ⟨b, hb, _⟩ := stuck_step _ h1 h2 h3; rw [e] at hb; cases hb

/-- When the right side has ended, a left value above 2^32 makes the join run forever. -/
theorem C70_optional_endless_violated : ¬ ∃ out, Returns exOpt [(1, [2 ^ 32])] [(1, [7, 1])] out := by
  rintro ⟨out, h⟩
  have h' : Runs (step exOpt) { st := .scanHasBoth, l := (1, [2 ^ 32]), r := (1, [7, 1]), lsh := (0, []), rsh := (0, []), ls := [], rs := [], buf := [], bi := [], inCopy := false } out := h
  have hs : step exOpt { st := .scanHasBoth, l := (1, [2 ^ 32]), r := (1, [7, 1]), lsh := (0, []), rsh := (0, []), ls := [], rs := [], buf := [], bi := [], inCopy := false } =
      .go { st := .scanStepRight, l := (1, [2 ^ 32]), r := (1, [7, 1]), lsh := (0, []), rsh := (0, []), ls := [], rs := [], buf := [], bi := [], inCopy := false } := rfl
  cases h' with
  | stop e => rw [hs] at e; cases e
  | go e hr => rw [hs] at e; cases e; exact stuck _ _ hr rfl rfl rfl
  | emit e => rw [hs] at e; cases e

/-- OPTIONAL on the left: the join variable of the result is the register of the left side, which has no value for a right row without partner. -/
theorem C70_left_optional_violated :
    ∃ out, Returns { exOpt with lo := true, ro := false } [(1, [5])] [(1, [4, 1]), (1, [5, 1])] out ∧ out = [(1, [null, 4, 1]), (1, [5, 5, 1])] :=
  ⟨_, runs_of_runFor 20 (by decide +kernel), rfl⟩

end Trident.Sparql.Merge
