import Verif.Parallel.Model
/-! # Parallel loops, the parallel sort and the queue: proofs -/
namespace Trident.Par

def covers (i : Nat) (r : Nat × Nat) : Bool := decide (r.1 ≤ i) && decide (i < r.2)

theorem chunks_cover {stop delta : Nat} (hd : 0 < delta) : ∀ (left b e : Nat), e < stop → stop ≤ e + left * delta → ∀ i,
    ((chunks stop delta left b e).1 ++ [((chunks stop delta left b e).2, stop)]).countP (covers i) = if e ≤ i ∧ i < stop then 1 else 0
  | 0, b, e, he, hs, i => by omega
  | left + 1, b, e, he, hs, i => by
    have hm : (left + 1) * delta = left * delta + delta := Nat.succ_mul left delta
    unfold chunks
    rw [if_pos he]
    by_cases h : e + delta ≥ stop
    · rw [if_pos h]
      simp only [List.nil_append, List.countP_cons, List.countP_nil, covers, Bool.and_eq_true, decide_eq_true_eq]
      omega
    · rw [if_neg h]
      have ih := chunks_cover (stop := stop) hd left e (e + delta) (by omega) (by omega) i
      simp only [List.cons_append, List.countP_cons, ih]
      simp only [covers, Bool.and_eq_true, decide_eq_true_eq]
      by_cases h1 : e ≤ i ∧ i < e + delta
      · rw [if_pos h1, if_neg (by omega), if_pos (by omega)]
      · rw [if_neg h1]
        by_cases h2 : e + delta ≤ i ∧ i < stop
        · rw [if_pos h2, if_pos (by omega)]
        · rw [if_neg h2, if_neg (by omega)]

theorem mergeBy_perm {α : Type} (lt : α → α → Bool) : ∀ a b : List α, (mergeBy lt a b).Perm (a ++ b)
  | [], b => by unfold mergeBy; exact .refl _
  | x :: a, [] => by unfold mergeBy; simp
  | x :: a, y :: b => by
    unfold mergeBy
    split
    · exact ((mergeBy_perm lt (x :: a) b).cons y).trans (List.perm_middle.symm)
    · exact (mergeBy_perm lt a (y :: b)).cons x
termination_by a b => a.length + b.length

/-- What the comparison has to be for `std::sort`. -/
structure Strict {α : Type} (lt : α → α → Bool) : Prop where
  asymm : ∀ {x y}, lt x y = true → lt y x = false
  /-- not being greater is transitive -/
  trans : ∀ {x y z}, lt y x = false → lt z y = false → lt z x = false

theorem mergeBy_sorted {α : Type} {lt : α → α → Bool} (h : Strict lt) : ∀ a b : List α, a.Pairwise (fun x y => lt y x = false) →
    b.Pairwise (fun x y => lt y x = false) → (mergeBy lt a b).Pairwise (fun x y => lt y x = false)
  | [], b, _, hb => by unfold mergeBy; exact hb
  | x :: a, [], ha, _ => by unfold mergeBy; exact ha
  | x :: a, y :: b, ha, hb => by
    unfold mergeBy
    rw [List.pairwise_cons] at ha hb
    split
    · next hc =>
      refine List.pairwise_cons.2 ⟨fun z hz => ?_, mergeBy_sorted h _ _ (List.pairwise_cons.2 ha) hb.2⟩
      rcases List.mem_append.1 ((mergeBy_perm lt _ _).mem_iff.1 hz) with hz | hz
      · rcases List.mem_cons.1 hz with rfl | hz
        · exact h.asymm hc
        · exact h.trans (h.asymm hc) (ha.1 z hz)
      · exact hb.1 z hz
    · next hc =>
      have hc : lt y x = false := by simpa using hc
      refine List.pairwise_cons.2 ⟨fun z hz => ?_, mergeBy_sorted h _ _ ha.2 (List.pairwise_cons.2 hb)⟩
      rcases List.mem_append.1 ((mergeBy_perm lt _ _).mem_iff.1 hz) with hz | hz
      · exact ha.1 z hz
      · rcases List.mem_cons.1 hz with rfl | hz
        · exact hc
        · exact h.trans hc (hb.1 z hz)
termination_by a b => a.length + b.length

theorem sortInt_spec {α : Type} {lt : α → α → Bool} {srt : List α → List α} (h : Strict lt)
    (hs : ∀ l, (srt l).Perm l ∧ (srt l).Pairwise fun x y => lt y x = false) (n : Int) (l : List α) :
    (sortInt srt lt n l).Perm l ∧ (sortInt srt lt n l).Pairwise fun x y => lt y x = false := by
  unfold sortInt
  split
  · exact hs l
  · next hc =>
    have h1 := sortInt_spec h hs (n / 2) (l.take (l.length / 2))
    have h2 := sortInt_spec h hs (n / 2) (l.drop (l.length / 2))
    refine ⟨?_, mergeBy_sorted h _ _ h1.2 h2.2⟩
    have := (mergeBy_perm lt _ _).trans (h1.1.append h2.1)
    rwa [List.take_append_drop] at this
termination_by n.toNat

/-! ## The queue -/

def sleepers {α : Type} (s : Q α) : Nat := s.cs.countP (· = .asleep)
def wokens {α : Type} (s : Q α) : Nat := s.cs.countP (· = .woken)

theorem countP_set' {l : List At} {c : Nat} {w v : At} (p : At → Bool) (h : l[c]? = some w) :
    (l.set c v).countP p + (if p w then 1 else 0) = l.countP p + (if p v then 1 else 0) := by
  induction l generalizing c with
  | nil => simp at h
  | cons x l ih =>
    cases c with
    | zero =>
      simp at h
      subst h
      simp only [List.set_cons_zero, List.countP_cons]
      omega
    | succ c =>
      have := ih (by simpa using h)
      simp only [List.set_cons_succ, List.countP_cons]
      omega

structure QInv {α : Type} (s : Q α) : Prop where
  fifo : s.pushed = s.taken ++ s.q
  awake : 0 < sleepers s → s.q.length ≤ wokens s

theorem step_qinv {α : Type} {s t : Q α} (h : QInv s) (st : Step s t) : QInv t := by
  cases st with
  | push x hn =>
    refine ⟨by simp [h.fifo], fun hp => ?_⟩
    exfalso
    obtain ⟨w, hw, hd⟩ := List.countP_pos_iff.1 hp
    simp at hd
    exact hn (hd ▸ hw)
  | pushWake x c hc =>
    refine ⟨by simp [h.fifo], fun hp => ?_⟩
    have h1 := countP_set' (v := .woken) (fun a => decide (a = At.woken)) hc
    have h0 : 0 < sleepers s := List.countP_pos_iff.2 ⟨_, List.mem_of_getElem? hc, by simp⟩
    have := h.awake h0
    simp at h1
    simp only [wokens, List.length_append, List.length_singleton] at this ⊢
    omega
  | take x r c w hc hq =>
    refine ⟨by simp [h.fifo, hq], fun hp => ?_⟩
    have h1 := countP_set' (v := .out) (fun a => decide (a = At.woken)) hc
    have h2 := countP_set' (v := .out) (fun a => decide (a = At.asleep)) hc
    simp at h1 h2
    have h0 : 0 < sleepers s := by simp only [sleepers] at hp ⊢; omega
    have := h.awake h0
    rw [hq, List.length_cons] at this
    simp only [wokens] at this ⊢
    split at h1 <;> omega
  | sleep c w hc hq => exact ⟨by simp [h.fifo], fun _ => by simp [hq]⟩

theorem steps_qinv {α : Type} {n : Nat} {t : Q α} (h : Steps (Q.start α n) t) : QInv t := by
  generalize hs : Q.start α n = s at h
  induction h with
  | refl =>
    subst hs
    exact ⟨rfl, fun h => by simp [sleepers, Q.start, List.countP_replicate] at h⟩
  | tail _ st ih => exact step_qinv ih st

theorem steps_cs {α : Type} {n : Nat} {t : Q α} (h : Steps (Q.start α n) t) : t.cs.length = n := by
  generalize hs : Q.start α n = s at h
  induction h with
  | refl => subst hs; simp [Q.start]
  | tail _ st ih =>
    have := ih
    cases st <;> simp_all

end Trident.Par
