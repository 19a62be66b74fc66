import Verif.Join.Table
import Verif.Join.ExecProofs
import Verif.Join.FinalProofs
/-! # Tables: proofs -/
namespace Trident.Join.Table
open Trident Join

/-! ## The order -/

theorem cmpL_self : ∀ a : List Nat, cmpL a a = .eq
  | [] => rfl
  | a :: l => by simp [cmpL, cmpL_self l]

theorem cmpL_eq : ∀ {a b : List Nat}, a.length = b.length → (cmpL a b = .eq ↔ a = b)
  | [], [], _ => by simp [cmpL]
  | x :: a, y :: b, h => by
    have ih := cmpL_eq (a := a) (b := b) (by simpa using h)
    unfold cmpL
    by_cases h1 : x < y
    · simp [h1]; omega
    · by_cases h2 : y < x
      · simp [h1, h2]; omega
      · have : x = y := by omega
        simp [this, ih]

theorem cmpL_swap : ∀ {a b : List Nat}, cmpL a b = .gt ↔ cmpL b a = .lt
  | [], [] => by simp [cmpL]
  | [], y :: b => by simp [cmpL]
  | x :: a, [] => by simp [cmpL]
  | x :: a, y :: b => by
    have ih := cmpL_swap (a := a) (b := b)
    unfold cmpL
    by_cases h1 : x < y
    · have h2 : ¬ y < x := by omega
      simp [h1, h2]
    · by_cases h2 : y < x
      · simp [h1, h2]
      · simp [h1, h2, ih]

theorem cmpL_trans {n : Nat} : ∀ {a b c : List Nat}, a.length = n → b.length = n → c.length = n → cmpL a b = .lt → cmpL b c ≠ .gt → cmpL a c = .lt := by
  induction n with
  | zero =>
    intro a b c ha hb hc h
    rw [List.length_eq_zero_iff.1 ha, List.length_eq_zero_iff.1 hb] at h
    simp [cmpL] at h
  | succ n ih =>
    intro a b c ha hb hc h1 h2
    match a, b, c, ha, hb, hc with
    | x :: a, y :: b, z :: c, ha, hb, hc =>
      unfold cmpL at h1 h2 ⊢
      by_cases e1 : x < y
      · by_cases e2 : y < z
        · rw [if_pos (by omega)]
        · by_cases e3 : z < y
          · simp [e2, e3] at h2
          · rw [if_pos (by omega)]
      · by_cases e2 : y < x
        · simp [e1, e2] at h1
        · have : x = y := by omega
          subst this
          by_cases e3 : x < z
          · rw [if_pos e3]
          · by_cases e4 : z < x
            · simp [e3, e4] at h2
            · rw [if_neg e3, if_neg e4]
              simp only [Nat.lt_irrefl, if_false] at h1
              rw [if_neg e3, if_neg e4] at h2
              exact ih (by simpa using ha) (by simpa using hb) (by simpa using hc) h1 h2

/-- In order. -/
def Le (a b : List Nat) : Prop := cmpL a b ≠ .gt

theorem le_lt {n : Nat} {a b c : List Nat} (ha : a.length = n) (hb : b.length = n) (hc : c.length = n) (h1 : Le a b) (h2 : cmpL b c = .lt) : cmpL a c = .lt := by
  cases h : cmpL a b with
  | lt => exact cmpL_trans ha hb hc h (by rw [h2]; decide)
  | eq =>
    rw [(cmpL_eq (by omega)).1 h]
    exact h2
  | gt => exact absurd h h1

/-! ## The join -/

theorem flatMap_congr' {α β : Type} {F G : α → List β} : ∀ {A : List α}, (∀ a ∈ A, F a = G a) → A.flatMap F = A.flatMap G
  | [], _ => rfl
  | a :: A, h => by rw [List.flatMap_cons, List.flatMap_cons, h a (by simp), flatMap_congr' fun x hx => h x (by simp [hx])]

theorem takeWhile_imp {α : Type} {p : α → Bool} {x : α} : ∀ {l : List α}, x ∈ l.takeWhile p → p x = true
  | [], h => by simp at h
  | a :: l, h => by
    rw [List.takeWhile_cons] at h
    by_cases hp : p a = true
    · rw [if_pos hp] at h
      rcases List.mem_cons.1 h with rfl | h'
      · exact hp
      · exact takeWhile_imp h'
    · rw [if_neg hp] at h
      simp at h

theorem mjoin_spec {α : Type} {k1 k2 : Row → List Nat} {out : Row → Row → α} {w : Nat} : ∀ {n : Nat} {l1 l2 : List Row}, l1.length + l2.length ≤ n →
    (∀ r ∈ l1, (k1 r).length = w) → (∀ r ∈ l2, (k2 r).length = w) → (l1.Pairwise fun a b => Le (k1 a) (k1 b)) → (l2.Pairwise fun a b => Le (k2 a) (k2 b)) →
    mjoin k1 k2 out n l1 l2 = l1.flatMap fun a => (l2.filter fun b => decide (k1 a = k2 b)).map (out a) := by
  intro n
  induction n with
  | zero =>
    intro l1 l2 hn _ _ _ _
    have : l1 = [] := List.length_eq_zero_iff.1 (by omega)
    subst this
    rfl
  | succ n ih =>
    intro l1 l2 hn w1 w2 s1 s2
    match l1, l2, hn, w1, w2, s1, s2 with
    | [], _, _, _, _, _, _ => simp [mjoin]
    | r1 :: t1, [], _, _, _, _, _ =>
      simp [mjoin]
    | r1 :: t1, r2 :: t2, hn, w1, w2, s1, s2 =>
      simp only [List.length_cons] at hn
      rw [List.pairwise_cons] at s1 s2
      have wr1 := w1 r1 (by simp)
      have wr2 := w2 r2 (by simp)
      have w1' : ∀ r ∈ t1, (k1 r).length = w := fun r hr => w1 r (by simp [hr])
      have w2' : ∀ r ∈ t2, (k2 r).length = w := fun r hr => w2 r (by simp [hr])
      simp only [mjoin]
      cases hc : cmpL (k1 r1) (k2 r2) with
      | lt =>
        simp only
        rw [ih (by simp; omega) w1' w2 s1.2 (List.pairwise_cons.2 s2), List.flatMap_cons]
        have : ((r2 :: t2).filter fun b => decide (k1 r1 = k2 b)) = [] := by
          rw [List.filter_eq_nil_iff]
          intro b hb
          have hlt : cmpL (k1 r1) (k2 b) = .lt := by
            rcases List.mem_cons.1 hb with rfl | hb'
            · exact hc
            · exact cmpL_trans wr1 wr2 (w2' b hb') hc (s2.1 b hb')
          simp only [decide_eq_true_eq]
          intro he
          rw [he, cmpL_self] at hlt
          cases hlt
        rw [this]
        simp
      | gt =>
        simp only
        rw [ih (by simp; omega) w1 w2' (List.pairwise_cons.2 s1) s2.2]
        refine flatMap_congr' fun a ha => ?_
        have hlt : cmpL (k2 r2) (k1 a) = .lt := by
          have h0 := cmpL_swap.1 hc
          rcases List.mem_cons.1 ha with rfl | ha'
          · exact h0
          · exact cmpL_trans wr2 wr1 (w1' a ha') h0 (s1.1 a ha')
        rw [List.filter_cons, if_neg]
        simp only [decide_eq_true_eq]
        intro he
        rw [he, cmpL_self] at hlt
        cases hlt
      | eq =>
        simp only
        have he : k1 r1 = k2 r2 := (cmpL_eq (by omega)).1 hc
        -- the ranges
        have split : ∀ (k : Row → List Nat) (r : Row) (t : List Row), (k r).length = w → (∀ x ∈ t, (k x).length = w) → (∀ x ∈ t, Le (k r) (k x)) →
            (t.Pairwise fun a b => Le (k a) (k b)) → (∀ x ∈ t.takeWhile fun x => cmpL (k r) (k x) == .eq, k x = k r) ∧
              (∀ x ∈ t.dropWhile fun x => cmpL (k r) (k x) == .eq, cmpL (k r) (k x) = .lt) := by
          intro k r t hr ht hle hs
          constructor
          · intro x hx
            have h1 := takeWhile_imp hx
            have h2 := ht x (List.takeWhile_subset _ hx)
            simp only [beq_iff_eq] at h1
            exact ((cmpL_eq (by omega)).1 h1).symm
          · induction t with
            | nil => simp
            | cons y t iht =>
              rw [List.pairwise_cons] at hs
              rw [List.dropWhile_cons]
              by_cases hy : (cmpL (k r) (k y) == .eq) = true
              · rw [if_pos hy]
                exact iht (fun x hx => ht x (by simp [hx])) (fun x hx => hle x (by simp [hx])) hs.2
              · rw [if_neg hy]
                have hy' : cmpL (k r) (k y) = .lt := by
                  have := hle y (by simp)
                  unfold Le at this
                  revert hy this
                  cases cmpL (k r) (k y) <;> simp
                intro x hx
                rcases List.mem_cons.1 hx with rfl | hx'
                · exact hy'
                · exact cmpL_trans hr (ht y (by simp)) (ht x (by simp [hx'])) hy' (hs.1 x hx')
        obtain ⟨a1, b1⟩ := split k1 r1 t1 wr1 w1' s1.1 s1.2
        obtain ⟨a2, b2⟩ := split k2 r2 t2 wr2 w2' s2.1 s2.2
        generalize hE1 : (fun r => cmpL (k1 r1) (k1 r) == Ordering.eq) = e1 at a1 b1 ⊢
        generalize hE2 : (fun r => cmpL (k2 r2) (k2 r) == Ordering.eq) = e2 at a2 b2 ⊢
        have d1 := List.takeWhile_append_dropWhile (p := e1) (l := t1)
        have d2 := List.takeWhile_append_dropWhile (p := e2) (l := t2)
        generalize t1.takeWhile e1 = g1 at *
        generalize t1.dropWhile e1 = u1 at *
        generalize t2.takeWhile e2 = g2 at *
        generalize t2.dropWhile e2 = u2 at *
        subst d1
        subst d2
        rw [List.pairwise_append] at s1 s2
        rw [ih (by simp at hn; omega) (fun r hr => w1' r (by simp [hr])) (fun r hr => w2' r (by simp [hr])) s1.2.2.1 s2.2.2.1]
        rw [← List.cons_append, ← List.cons_append, List.flatMap_append]
        congr 1
        · refine flatMap_congr' fun a ha => ?_
          have hka : k1 a = k1 r1 := by
            rcases List.mem_cons.1 ha with rfl | ha'
            · rfl
            · exact a1 a ha'
          rw [List.filter_append]
          have h1 : ((r2 :: g2).filter fun b => decide (k1 a = k2 b)) = r2 :: g2 := by
            rw [List.filter_eq_self]
            intro b hb
            rcases List.mem_cons.1 hb with rfl | hb'
            · simp [hka, he]
            · simp [hka, he, a2 b hb']
          have h2 : (u2.filter fun b => decide (k1 a = k2 b)) = [] := by
            rw [List.filter_eq_nil_iff]
            intro b hb
            simp only [decide_eq_true_eq]
            intro h
            have := b2 b hb
            rw [← h, hka, he, cmpL_self] at this
            cases this
          rw [h1, h2, List.append_nil]
        · refine flatMap_congr' fun a ha => ?_
          rw [List.filter_append]
          have h1 : ((r2 :: g2).filter fun b => decide (k1 a = k2 b)) = [] := by
            rw [List.filter_eq_nil_iff]
            intro b hb
            have hkb : k2 b = k1 r1 := by
              rcases List.mem_cons.1 hb with rfl | hb'
              · exact he.symm
              · rw [a2 b hb', he]
            simp only [decide_eq_true_eq]
            intro h
            have := b1 a ha
            rw [h, hkb, cmpL_self] at this
            cases this
          rw [h1, List.nil_append]

/-! ## Union and difference -/

/-- What the loop of `merge` computes. -/
theorem mergeLoop_nil1 {n : Nat} {h2 : Option Row} {l2 : List Row} : mergeLoop (n + 1) none [] h2 l2 = h2.toList ++ l2 := by
  unfold mergeLoop nextRow
  simp

theorem nextRow_spec (h : Option Row) (l : List Row) : nextRow h l = (h.toList ++ l).head?.map fun r => (r, (h.toList ++ l).tail) := by
  cases h <;> rfl

/-- The rows that were not copied yet are sorted: the output is sorted and has each row as often as the input that has it more often. -/
theorem mergeLoop_spec {w : Nat} : ∀ {n : Nat} {h1 h2 : Option Row} {l1 l2 A B : List Row}, h1.toList ++ l1 = A → h2.toList ++ l2 = B → A.length + B.length < n →
    (∀ r ∈ A, r.length = w) → (∀ r ∈ B, r.length = w) → A.Pairwise Le → B.Pairwise Le →
    (mergeLoop n h1 l1 h2 l2).Pairwise Le ∧ ∀ r, (mergeLoop n h1 l1 h2 l2).count r = max (A.count r) (B.count r) := by
  intro n
  induction n with
  | zero => intro h1 h2 l1 l2 A B _ _ hn; omega
  | succ n ih =>
    intro h1 h2 l1 l2 A B eA eB hn wA wB sA sB
    unfold mergeLoop
    rw [nextRow_spec, nextRow_spec, eA, eB]
    match A, B, eA, eB, hn, wA, wB, sA, sB with
    | [], B, eA, eB, hn, wA, wB, sA, sB =>
      simp
      exact sB
    | a :: A, [], eA, eB, hn, wA, wB, sA, sB =>
      simp
      exact List.pairwise_cons.1 sA
    | a :: A, b :: B, eA, eB, hn, wA, wB, sA, sB =>
      simp only [List.length_cons] at hn
      have sA' := List.pairwise_cons.1 sA
      have sB' := List.pairwise_cons.1 sB
      have wa := wA a (by simp)
      have wb := wB b (by simp)
      have wA' : ∀ r ∈ A, r.length = w := fun r hr => wA r (by simp [hr])
      have wB' : ∀ r ∈ B, r.length = w := fun r hr => wB r (by simp [hr])
      simp only [List.head?_cons, Option.map_some, List.tail_cons]
      have lower : ∀ {L : List Row}, (∀ r, L.count r = max (A.count r) (B.count r)) → (∀ r ∈ A, Le a r) → (∀ r ∈ B, Le a r) → ∀ r ∈ L, Le a r := by
        intro L hL h1 h2 r hr
        have := List.count_pos_iff.2 hr
        rw [hL] at this
        rcases Nat.lt_or_ge 0 (A.count r) with h | h
        · exact h1 r (List.count_pos_iff.1 h)
        · exact h2 r (List.count_pos_iff.1 (by omega))
      have notin : ∀ {x : Row} {L : List Row}, (∀ r ∈ L, cmpL x r = .lt) → L.count x = 0 := by
        intro x L h
        rw [List.count_eq_zero]
        intro hx
        have := h x hx
        rw [cmpL_self] at this
        cases this
      cases hc : cmpL a b with
      | lt =>
        simp only
        obtain ⟨i1, i2⟩ := ih (h1 := none) (h2 := some b) (l1 := A) (l2 := B) rfl rfl (by simp; omega) wA' wB sA'.2 sB
        simp only [Option.toList_none, List.nil_append, Option.toList_some, List.singleton_append] at i2
        have hb : ∀ r ∈ b :: B, cmpL a r = .lt := by
          intro r hr
          rcases List.mem_cons.1 hr with rfl | hr'
          · exact hc
          · exact cmpL_trans wa wb (wB' r hr') hc (sB'.1 r hr')
        refine ⟨List.pairwise_cons.2 ⟨?_, i1⟩, ?_⟩
        · intro r hr
          have := List.count_pos_iff.2 hr
          rw [i2] at this
          rcases Nat.lt_or_ge 0 (A.count r) with h | h
          · exact sA'.1 r (List.count_pos_iff.1 h)
          · have := hb r (List.count_pos_iff.1 (by omega))
            unfold Le
            rw [this]
            decide
        · intro r
          rw [List.count_cons, i2, List.count_cons (a := r) (b := a)]
          by_cases hr : a = r
          · subst hr
            rw [notin hb]
            simp
          · simp [hr]
      | gt =>
        simp only
        have hc' := cmpL_swap.1 hc
        obtain ⟨i1, i2⟩ := ih (h1 := some a) (h2 := none) (l1 := A) (l2 := B) rfl rfl (by simp; omega) wA wB' sA sB'.2
        simp only [Option.toList_none, List.nil_append, Option.toList_some, List.singleton_append] at i2
        have hb : ∀ r ∈ a :: A, cmpL b r = .lt := by
          intro r hr
          rcases List.mem_cons.1 hr with rfl | hr'
          · exact hc'
          · exact cmpL_trans wb wa (wA' r hr') hc' (sA'.1 r hr')
        refine ⟨List.pairwise_cons.2 ⟨?_, i1⟩, ?_⟩
        · intro r hr
          have := List.count_pos_iff.2 hr
          rw [i2] at this
          rcases Nat.lt_or_ge 0 (B.count r) with h | h
          · exact sB'.1 r (List.count_pos_iff.1 h)
          · have := hb r (List.count_pos_iff.1 (by omega))
            unfold Le
            rw [this]
            decide
        · intro r
          rw [List.count_cons, i2, List.count_cons (a := r) (b := b)]
          by_cases hr : b = r
          · subst hr
            rw [notin hb]
            simp
          · simp [hr]
      | eq =>
        simp only
        have he : a = b := (cmpL_eq (by omega)).1 hc
        subst he
        obtain ⟨i1, i2⟩ := ih (h1 := none) (h2 := none) (l1 := A) (l2 := B) rfl rfl (by simp; omega) wA' wB' sA'.2 sB'.2
        simp only [Option.toList_none, List.nil_append] at i2
        refine ⟨List.pairwise_cons.2 ⟨lower i2 sA'.1 sB'.1, i1⟩, ?_⟩
        intro r
        rw [List.count_cons, i2, List.count_cons, List.count_cons]
        omega

/-- One pass of the loop of `retain` that compares two rows. -/
theorem retainLoop_step {n : Nat} {p h1 h2 : Option Row} {l1 l2 A B : List Row} {a b : Row} (hA : h1.toList ++ l1 = a :: A) (hB : h2.toList ++ l2 = b :: B)
    (e1 : l1 ≠ []) (e2 : l2 ≠ []) (hd : ¬ (h1 = none ∧ (p.elim false fun q => cmpL q (l1.head?.getD []) == .eq) = true)) :
    retainLoop (n + 1) p h1 l1 h2 l2 = match cmpL a b with
      | .eq => retainLoop n (some a) none A none B
      | .lt => a :: retainLoop n (some a) none A (some b) B
      | .gt => retainLoop n (some a) (some a) A none B := by
  rw [retainLoop, if_neg (by simp [e1, e2]), if_neg hd, nextRow_spec, nextRow_spec, hA, hB]
  rfl

theorem split_row {h : Option Row} {l : List Row} (e : l ≠ []) : ∃ a A, h.toList ++ l = a :: A ∧ (h = none → A.length + 1 = l.length ∧ l.head?.getD [] = a) ∧ (h ≠ none → h = some a ∧ A = l) := by
  obtain ⟨x, l, rfl⟩ := List.exists_cons_of_ne_nil e
  cases h with
  | none => exact ⟨x, l, rfl, fun _ => ⟨rfl, rfl⟩, by simp⟩
  | some r => exact ⟨r, x :: l, rfl, by simp, fun _ => ⟨rfl, rfl⟩⟩

/-- `retain` keeps what is only in the first table, and invents nothing. -/
theorem retainLoop_spec {w : Nat} : ∀ {n : Nat} {p h1 h2 : Option Row} {l1 l2 : List Row}, l1.length + l2.length < n → (h1 = none ∨ h2 = none) →
    (∀ r ∈ h1.toList ++ l1, r.length = w) → (∀ r ∈ h2.toList ++ l2, r.length = w) → (∀ q, p = some q → q.length = w) →
    (∀ r ∈ retainLoop n p h1 l1 h2 l2, r ∈ h1.toList ++ l1) ∧
      ∀ r ∈ h1.toList ++ l1, r ∈ retainLoop n p h1 l1 h2 l2 ∨ r ∈ h2.toList ++ l2 ∨ p = some r ∧ h1 = none := by
  intro n
  induction n with
  | zero => intro p h1 h2 l1 l2 hn; omega
  | succ n ih =>
    intro p h1 h2 l1 l2 hn hh w1 w2 wp
    by_cases he : l1 = [] ∨ l2 = []
    · unfold retainLoop
      rw [if_pos he]
      exact ⟨fun r hr => hr, fun r hr => .inl hr⟩
    · simp only [not_or] at he
      by_cases hd : h1 = none ∧ (p.elim false fun q => cmpL q (l1.head?.getD []) == .eq) = true
      · have : retainLoop (n + 1) p h1 l1 h2 l2 = retainLoop n p none l1.tail h2 l2 := by
          rw [retainLoop, if_neg (by simp [he]), if_pos hd]
        rw [this]
        obtain ⟨rfl, hd⟩ := hd
        obtain ⟨x, l1, rfl⟩ := List.exists_cons_of_ne_nil he.1
        match p, hd, wp with
        | some q, hd, wp =>
          simp only [Option.elim_some, List.head?_cons, Option.getD_some, beq_iff_eq] at hd
          have hq := wp q rfl
          have hx := w1 x (by simp)
          have : q = x := (cmpL_eq (by omega)).1 hd
          subst this
          simp only [List.length_cons] at hn
          obtain ⟨i1, i2⟩ := ih (p := some q) (h1 := none) (h2 := h2) (l1 := l1) (l2 := l2) (by omega) (.inl rfl) (fun r hr => w1 r (by simp at hr ⊢; simp [hr])) w2 wp
          refine ⟨fun r hr => ?_, fun r hr => ?_⟩
          · have := i1 r hr
            simp at this ⊢
            simp [this]
          · simp only [Option.toList_none, List.nil_append] at hr
            rcases List.mem_cons.1 hr with rfl | hr'
            · exact .inr (.inr ⟨rfl, rfl⟩)
            · exact i2 r (by simpa using hr')
      · obtain ⟨a, A, hA, fA, gA⟩ := split_row (h := h1) he.1
        obtain ⟨b, B, hB, fB, gB⟩ := split_row (h := h2) he.2
        rw [retainLoop_step hA hB he.1 he.2 hd]
        have hlen : A.length + B.length < n := by
          by_cases c1 : h1 = none
          · have := (fA c1).1
            by_cases c2 : h2 = none
            · have := (fB c2).1; omega
            · have := (gB c2).2; subst this; omega
          · have c2 : h2 = none := hh.resolve_left c1
            have := (fB c2).1
            have := (gA c1).2
            subst this; omega
        rw [hA] at w1 ⊢
        rw [hB] at w2 ⊢
        have wa := w1 a (by simp)
        have wb := w2 b (by simp)
        have wA : ∀ r ∈ A, r.length = w := fun r hr => w1 r (by simp [hr])
        have wB : ∀ r ∈ B, r.length = w := fun r hr => w2 r (by simp [hr])
        have wp' : ∀ q, some a = some q → q.length = w := by rintro q ⟨⟩; exact wa
        cases hc : cmpL a b with
        | eq =>
          simp only
          have hab : a = b := (cmpL_eq (by omega)).1 hc
          obtain ⟨i1, i2⟩ := ih (p := some a) (h1 := none) (h2 := none) (l1 := A) (l2 := B) hlen (.inl rfl) (by simpa using wA) (by simpa using wB) wp'
          simp only [Option.toList_none, List.nil_append] at i1 i2
          refine ⟨fun r hr => by simp [i1 r hr], fun r hr => ?_⟩
          rcases List.mem_cons.1 hr with rfl | hr'
          · exact .inr (.inl (by simp [hab]))
          · rcases i2 r hr' with h | h | ⟨h, -⟩
            · exact .inl h
            · exact .inr (.inl (by simp [h]))
            · cases h
              exact .inr (.inl (by simp [hab]))
        | lt =>
          simp only
          obtain ⟨i1, i2⟩ := ih (p := some a) (h1 := none) (h2 := some b) (l1 := A) (l2 := B) hlen (.inl rfl) (by simpa using wA) (by simpa using w2) wp'
          simp only [Option.toList_none, List.nil_append, Option.toList_some, List.singleton_append] at i1 i2
          refine ⟨fun r hr => ?_, fun r hr => ?_⟩
          · rcases List.mem_cons.1 hr with rfl | hr'
            · simp
            · simp [i1 r hr']
          · rcases List.mem_cons.1 hr with rfl | hr'
            · exact .inl (by simp)
            · rcases i2 r hr' with h | h | ⟨h, -⟩
              · exact .inl (by simp [h])
              · exact .inr (.inl h)
              · cases h
                exact .inl (by simp)
        | gt =>
          simp only
          obtain ⟨i1, i2⟩ := ih (p := some a) (h1 := some a) (h2 := none) (l1 := A) (l2 := B) hlen (.inr rfl) (by simpa using w1) (by simpa using wB) wp'
          simp only [Option.toList_none, List.nil_append, Option.toList_some, List.singleton_append] at i1 i2
          refine ⟨i1, fun r hr => ?_⟩
          rcases i2 r hr with h | h | ⟨-, h⟩
          · exact .inl h
          · exact .inr (.inl (by simp [h]))
          · cases h

/-- `retain` keeps nothing of the second table, if the last row of each table is not in the other one. -/
theorem retainLoop_exact {w : Nat} {B0 : List Row} {y z : Row} (hy : y ∉ B0) : ∀ {n : Nat} {p h1 h2 : Option Row} {l1 l2 A B : List Row},
    h1.toList ++ l1 = A → h2.toList ++ l2 = B → l1.length + l2.length < n → (h1 = none ∨ h2 = none) →
    (∀ r ∈ A, r.length = w) → (∀ r ∈ B, r.length = w) → (∀ q, p = some q → q.length = w) → A.Pairwise Le → B.Pairwise Le → (∀ q, p = some q → ∀ r ∈ A, Le q r) →
    (∀ r ∈ A, r ≠ z) → (∀ r, A.getLast? = some r → r = y) → (∀ r, B.getLast? = some r → r = z) →
    (∀ r ∈ A, r ∈ B0 → r ∈ B ∨ (p = some r ∧ h1 = none ∧ l2 ≠ [])) → ∀ r ∈ retainLoop n p h1 l1 h2 l2, r ∉ B0 := by
  intro n
  induction n with
  | zero => intro p h1 h2 l1 l2 A B _ _ hn; omega
  | succ n ih =>
    intro p h1 h2 l1 l2 A' B' eA eB hn hh w1 w2 wp sA sB hp hz hA hB hinv
    by_cases he : l1 = [] ∨ l2 = []
    · unfold retainLoop
      rw [if_pos he, eA]
      intro r hr hr0
      rcases he with rfl | rfl
      · cases h1 with
        | none => simp at eA; subst eA; simp at hr
        | some a =>
          simp at eA
          subst eA
          simp at hr
          subst hr
          exact hy ((hA r (by simp)) ▸ hr0)
      · rcases hinv r hr hr0 with h | ⟨-, -, h⟩
        · cases h2 with
          | none => simp at eB; subst eB; simp at h
          | some b =>
            simp at eB
            subst eB
            simp at h
            subst h
            exact hz r hr (hB r (by simp))
        · exact h rfl
    · simp only [not_or] at he
      by_cases hd : h1 = none ∧ (p.elim false fun q => cmpL q (l1.head?.getD []) == .eq) = true
      · have : retainLoop (n + 1) p h1 l1 h2 l2 = retainLoop n p none l1.tail h2 l2 := by
          rw [retainLoop, if_neg (by simp [he]), if_pos hd]
        rw [this]
        obtain ⟨rfl, hd⟩ := hd
        obtain ⟨x, l1, rfl⟩ := List.exists_cons_of_ne_nil he.1
        simp only [Option.toList_none, List.nil_append] at eA
        subst eA
        simp only [List.length_cons] at hn
        rw [List.pairwise_cons] at sA
        refine ih (A := l1) (B := B') rfl eB (by simp; omega) (.inl rfl) (fun r hr => w1 r (by simp [hr])) w2 wp sA.2 sB (fun q hq r hr => hp q hq r (by simp [hr]))
          (fun r hr => hz r (by simp [hr])) ?_ hB (fun r hr hr0 => hinv r (by simp [hr]) hr0)
        intro r hr
        refine hA r ?_
        rw [List.getLast?_cons, hr]
        rfl
      · obtain ⟨a, A, hA1, fA, gA⟩ := split_row (h := h1) he.1
        obtain ⟨b, B, hB1, fB, gB⟩ := split_row (h := h2) he.2
        rw [retainLoop_step hA1 hB1 he.1 he.2 hd]
        have hlen : A.length + B.length < n := by
          by_cases c1 : h1 = none
          · have := (fA c1).1
            by_cases c2 : h2 = none
            · have := (fB c2).1; omega
            · have := (gB c2).2; subst this; omega
          · have c2 : h2 = none := hh.resolve_left c1
            have := (fB c2).1
            have := (gA c1).2
            subst this; omega
        rw [eA] at hA1
        rw [eB] at hB1
        subst hA1
        subst hB1
        have wa := w1 a (by simp)
        have wb := w2 b (by simp)
        have wA : ∀ r ∈ A, r.length = w := fun r hr => w1 r (by simp [hr])
        have wB : ∀ r ∈ B, r.length = w := fun r hr => w2 r (by simp [hr])
        have wp' : ∀ q, some a = some q → q.length = w := by rintro q ⟨⟩; exact wa
        have sA' := List.pairwise_cons.1 sA
        have sB' := List.pairwise_cons.1 sB
        -- no row that is left was just compared
        have hinv' : ∀ r ∈ a :: A, r ∈ B0 → r ∈ b :: B := by
          intro r hr hr0
          rcases hinv r hr hr0 with h | ⟨h3, h4, -⟩
          · exact h
          · exfalso
            refine hd ⟨h4, ?_⟩
            rw [h3]
            simp only [Option.elim_some, beq_iff_eq]
            rw [(fA h4).2]
            rcases List.mem_cons.1 hr with rfl | hr'
            · exact cmpL_self _
            · have h5 := hp r h3 a (by simp)
              have h6 := sA'.1 r hr'
              unfold Le at h5 h6
              cases hc : cmpL r a with
              | eq => rfl
              | gt => exact absurd hc h5
              | lt => exact absurd (cmpL_swap.2 hc) h6
        have lastA : ∀ r, A.getLast? = some r → r = y := by
          intro r hr
          refine hA r ?_
          rw [List.getLast?_cons, hr]
          rfl
        have lastB : ∀ r, B.getLast? = some r → r = z := by
          intro r hr
          refine hB r ?_
          rw [List.getLast?_cons, hr]
          rfl
        have hp' : ∀ q, some a = some q → ∀ r ∈ A, Le q r := by rintro q ⟨⟩; exact sA'.1
        have hzA : ∀ r ∈ A, r ≠ z := fun r hr => hz r (by simp [hr])
        cases hc : cmpL a b with
        | eq =>
          simp only
          have hab : a = b := (cmpL_eq (by omega)).1 hc
          refine ih (A := A) (B := B) rfl rfl hlen (.inl rfl) wA wB wp' sA'.2 sB'.2 hp' hzA lastA lastB ?_
          intro r hr hr0
          rcases List.mem_cons.1 (hinv' r (by simp [hr]) hr0) with h | h
          · refine .inr ⟨by rw [h, hab], rfl, ?_⟩
            rintro rfl
            exact hz a (by simp) (hab ▸ hB b (by simp))
          · exact .inl h
        | lt =>
          simp only
          intro r hr
          rcases List.mem_cons.1 hr with rfl | hr'
          · intro hr0
            have := hinv' r (by simp) hr0
            have hlt : cmpL r r = .lt := by
              rcases List.mem_cons.1 this with h | h
              · rw [← h] at hc; exact hc
              · exact cmpL_trans wa wb (wB r h) hc (sB'.1 r h)
            rw [cmpL_self] at hlt
            cases hlt
          · exact ih (A := A) (B := b :: B) rfl rfl hlen (.inl rfl) wA w2 wp' sA'.2 sB hp' hzA lastA hB
              (fun r hr hr0 => .inl (hinv' r (by simp [hr]) hr0)) r hr'
        | gt =>
          simp only
          have hc' := cmpL_swap.1 hc
          refine ih (A := a :: A) (B := B) rfl rfl hlen (.inr rfl) w1 wB wp' sA sB'.2 ?_ hz hA lastB ?_
          · rintro q ⟨⟩ r hr
            rcases List.mem_cons.1 hr with rfl | hr'
            · unfold Le; rw [cmpL_self]; decide
            · exact sA'.1 r hr'
          · intro r hr hr0
            rcases List.mem_cons.1 (hinv' r hr hr0) with h | h
            · exfalso
              have hlt : cmpL b r = .lt := by
                rcases List.mem_cons.1 hr with rfl | hr'
                · exact hc'
                · exact cmpL_trans wb wa (wA r hr') hc' (sA'.1 r hr')
              rw [h, cmpL_self] at hlt
              cases hlt
            · exact .inl h

/-! ## The join, in terms of names -/

theorem mem_joinFields {s1 s2 : List Nat} {i j : Nat} : (i, j) ∈ joinFields s1 s2 ↔ i < s1.length ∧ j < s2.length ∧ s1[i]? = s2[j]? := by
  unfold joinFields
  simp only [List.mem_flatMap, List.mem_map, List.mem_filter, List.mem_range, beq_iff_eq, Prod.mk.injEq]
  constructor
  · rintro ⟨i', h1, j', ⟨h2, h3⟩, rfl, rfl⟩
    exact ⟨h1, h2, h3⟩
  · rintro ⟨h1, h2, h3⟩
    exact ⟨i, h1, j, ⟨h2, h3⟩, rfl, rfl⟩

/-- The fields agree exactly if the rows agree on the shared names. -/
theorem agree_iff {s1 s2 r1 r2 : List Nat} (n1 : s1.Nodup) (n2 : s2.Nodup) (l1 : r1.length = s1.length) (l2 : r2.length = s2.length) :
    pick ((joinFields s1 s2).map Prod.fst) r1 = pick ((joinFields s1 s2).map Prod.snd) r2 ↔ consistent (s1.zip r1 ++ s2.zip r2) = true := by
  rw [consistent_append, keys_zip l1, keys_zip l2]
  constructor
  · intro h
    refine ⟨consistent_zip n1 l1, consistent_zip n2 l2, ?_⟩
    intro v h2 h1
    rw [value_zip l1 h1, value_zip l2 h2]
    unfold pick at h
    rw [List.map_map, List.map_map] at h
    have := (List.map_inj_left.1 h) (s1.idxOf v, s2.idxOf v) (mem_joinFields.2 ⟨List.idxOf_lt_length_iff.2 h1, List.idxOf_lt_length_iff.2 h2, by
      rw [List.getElem?_eq_getElem (List.idxOf_lt_length_iff.2 h1), List.getElem?_eq_getElem (List.idxOf_lt_length_iff.2 h2), List.getElem_idxOf, List.getElem_idxOf]⟩)
    exact this
  · rintro ⟨-, -, h⟩
    unfold pick
    rw [List.map_map, List.map_map, List.map_inj_left]
    rintro ⟨i, j⟩ hij
    obtain ⟨h1, h2, h3⟩ := mem_joinFields.1 hij
    rw [List.getElem?_eq_getElem h1, List.getElem?_eq_getElem h2] at h3
    have h3 := Option.some.inj h3
    have := h s2[j] (List.getElem_mem h2) (h3 ▸ List.getElem_mem h1)
    rw [value_zip l2 (List.getElem_mem h2), value_zip l1 (h3 ▸ List.getElem_mem h1)] at this
    have e2 : s2.idxOf s2[j] = j := n2.idxOf_getElem j h2
    have e1 : s1.idxOf s2[j] = i := by rw [← h3]; exact n1.idxOf_getElem i h1
    rw [e1, e2] at this
    exact this

theorem map_value_left {s1 r1 : List Nat} (n1 : s1.Nodup) (l1 : r1.length = s1.length) (b : Binding) : s1.map (value (s1.zip r1 ++ b)) = r1 := by
  apply List.ext_getElem
  · simp [l1]
  · intro i h1 h2
    simp only [List.length_map] at h1
    rw [List.getElem_map, value_append_left (by rw [keys_zip l1]; exact List.getElem_mem h1), value_zip l1 (List.getElem_mem h1), n1.idxOf_getElem i h1]
    rw [List.getD_eq_getElem?_getD, List.getElem?_eq_getElem h2]
    rfl

/-- The names of the copied fields. -/
theorem copied_names {s1 s2 : List Nat} : ((posToCopy (joinFields s1 s2) s2.length).map fun i => s2.getD i 0) = fresh s1 s2 := by
  unfold posToCopy fresh
  have h : s2 = (List.range s2.length).map fun i => s2.getD i 0 := by
    apply List.ext_getElem
    · simp
    · intro i h1 h2
      simp [List.getElem?_eq_getElem h1]
  conv => rhs; rw [h]
  rw [List.filter_map]
  congr 1
  refine List.filter_congr fun i hi => ?_
  have hi : i < s2.length := by simpa using hi
  simp only [Function.comp_apply, List.getD_eq_getElem?_getD, List.getElem?_eq_getElem hi, Option.getD_some]
  suffices hcon : (((joinFields s1 s2).map Prod.snd).contains i) = decide (s2[i] ∈ s1) by
    rw [hcon]
    simp
  apply Bool.eq_iff_iff.2
  simp only [List.contains_iff_mem, List.mem_map, Prod.exists, exists_eq_right, decide_eq_true_eq]
  constructor
  · rintro ⟨k, hk⟩
    obtain ⟨h1, h2, h3⟩ := mem_joinFields.1 hk
    rw [List.getElem?_eq_getElem h1, List.getElem?_eq_getElem h2] at h3
    have h3 := Option.some.inj h3
    rw [← h3]
    exact List.getElem_mem h1
  · intro hm
    obtain ⟨k, hk, he⟩ := List.getElem_of_mem hm
    exact ⟨k, mem_joinFields.2 ⟨hk, hi, by rw [List.getElem?_eq_getElem hk, List.getElem?_eq_getElem hi, he]⟩⟩

theorem copied_row {s1 s2 r1 r2 : List Nat} (n1 : s1.Nodup) (n2 : s2.Nodup) (l1 : r1.length = s1.length) (l2 : r2.length = s2.length) :
    r1 ++ pick (posToCopy (joinFields s1 s2) s2.length) r2 = (s1 ++ fresh s1 s2).map (value (s1.zip r1 ++ s2.zip r2)) := by
  rw [List.map_append, map_value_left n1 l1, ← copied_names]
  congr 1
  unfold pick
  rw [List.map_map, List.map_inj_left]
  intro i hi
  have hi1 : i < s2.length := by
    have := (List.mem_filter.1 hi).1
    simpa using this
  have hmem : s2.getD i 0 ∈ fresh s1 s2 := by
    rw [← copied_names]
    exact List.mem_map_of_mem hi
  have hf := (List.mem_filter.1 hmem)
  simp only [decide_eq_true_eq] at hf
  simp only [Function.comp_apply]
  rw [value_append_right (by rw [keys_zip l1]; exact hf.2), value_zip l2 hf.1]
  have : s2.getD i 0 = s2[i] := by simp [List.getElem?_eq_getElem hi1]
  rw [this, n2.idxOf_getElem i hi1]

theorem solutions_two {s1 s2 : List Nat} {R1 R2 : List Row} : solutions [⟨s1, R1⟩, ⟨s2, R2⟩] =
    R1.flatMap fun a => ((R2.filter fun b => consistent (s1.zip a ++ s2.zip b)).map fun b => s1.zip a ++ s2.zip b) := by
  unfold solutions combos combos combos
  rw [List.filter_flatMap]
  refine flatMap_congr' fun a _ => ?_
  simp only [List.map_flatMap, List.map_cons, List.map_nil, List.append_nil]
  rw [← List.map_eq_flatMap, List.filter_map]
  rfl

/-- The rows of the merge join of sorted tables. -/
theorem mjoin_solutions {s1 s2 : List Nat} {R1 R2 : List Row} (n1 : s1.Nodup) (n2 : s2.Nodup) (l1 : ∀ r ∈ R1, r.length = s1.length) (l2 : ∀ r ∈ R2, r.length = s2.length)
    (o1 : R1.Pairwise fun a b => Le (pick ((joinFields s1 s2).map Prod.fst) a) (pick ((joinFields s1 s2).map Prod.fst) b))
    (o2 : R2.Pairwise fun a b => Le (pick ((joinFields s1 s2).map Prod.snd) a) (pick ((joinFields s1 s2).map Prod.snd) b)) {α : Type} (f : Row → Row → α) (g : Binding → α)
    (hfg : ∀ a ∈ R1, ∀ b ∈ R2, f a b = g (s1.zip a ++ s2.zip b)) :
    mjoin (pick ((joinFields s1 s2).map Prod.fst)) (pick ((joinFields s1 s2).map Prod.snd)) f (R1.length + R2.length) R1 R2 = (solutions [⟨s1, R1⟩, ⟨s2, R2⟩]).map g := by
  rw [mjoin_spec (w := (joinFields s1 s2).length) (Nat.le_refl _) (by simp [pick]) (by simp [pick]) o1 o2, solutions_two, List.map_flatMap]
  refine flatMap_congr' fun a ha => ?_
  rw [List.map_map]
  have : (R2.filter fun b => decide (pick ((joinFields s1 s2).map Prod.fst) a = pick ((joinFields s1 s2).map Prod.snd) b)) =
      R2.filter fun b => consistent (s1.zip a ++ s2.zip b) := by
    refine List.filter_congr fun b hb => ?_
    rw [Bool.eq_iff_iff, decide_eq_true_eq]
    exact agree_iff n1 n2 (l1 a ha) (l2 b hb)
  rw [this]
  refine List.map_congr_left fun b hb => ?_
  exact hfg a ha b (List.mem_filter.1 hb).1

theorem joinFields_nil {s1 s2 : List Nat} (h : joinFields s1 s2 = []) : fresh s1 s2 = s2 := by
  unfold fresh
  rw [List.filter_eq_self]
  intro v hv
  simp only [decide_eq_true_eq]
  intro hv1
  obtain ⟨i, hi, e1⟩ := List.getElem_of_mem hv1
  obtain ⟨j, hj, e2⟩ := List.getElem_of_mem hv
  have : (i, j) ∈ joinFields s1 s2 := mem_joinFields.2 ⟨hi, hj, by rw [List.getElem?_eq_getElem hi, List.getElem?_eq_getElem hj, e1, e2]⟩
  rw [h] at this
  simp at this

theorem product_solutions {s1 s2 : List Nat} {R1 R2 : List Row} (n1 : s1.Nodup) (n2 : s2.Nodup) (l1 : ∀ r ∈ R1, r.length = s1.length) (l2 : ∀ r ∈ R2, r.length = s2.length)
    (h : joinFields s1 s2 = []) : (R1.flatMap fun r => R2.map fun s => r ++ s) = (solutions [⟨s1, R1⟩, ⟨s2, R2⟩]).map fun b => (s1 ++ fresh s1 s2).map (value b) := by
  rw [solutions_two, List.map_flatMap]
  refine flatMap_congr' fun a ha => ?_
  have : (R2.filter fun b => consistent (s1.zip a ++ s2.zip b)) = R2 := by
    rw [List.filter_eq_self]
    intro b hb
    rw [← agree_iff n1 n2 (l1 a ha) (l2 b hb), h]
    rfl
  rw [this, List.map_map]
  refine List.map_congr_left fun b hb => ?_
  simp only [Function.comp_apply]
  rw [← copied_row n1 n2 (l1 a ha) (l2 b hb), h]
  have : pick (posToCopy [] s2.length) b = b := by
    unfold pick posToCopy
    simp only [List.map_nil, List.contains_nil, Bool.not_false]
    rw [List.filter_eq_self.2 (by simp)]
    apply List.ext_getElem
    · simp [l2 b hb]
    · intro i h1 h2
      simp [List.getElem?_eq_getElem h2]
  rw [this]

/-! ## The iterator -/

theorem itr_rows {t : Tab} (hs : t.size ≠ 0) (hn : t.rows.length ≤ 2 ^ 32) : ∀ (k i : Nat) (s : St), i + k = t.rows.length → s.counter = (i : Int) - 1 → s.hnc = false →
    Yields (t.itr false) s ((t.rows.drop i).map fun r => (some r, 1)) := by
  intro k
  induction k with
  | zero =>
    intro i s hi hc hh
    rw [List.drop_eq_nil_of_le (by omega)]
    rw [List.map_nil, yields_nil]
    simp only [Tab.itr, if_neg hs, hh]
    simp [hc]
    omega
  | succ k ih =>
    intro i s hi hc hh
    have hlt : i < t.rows.length := by omega
    have hN : (t.itr false).hasNext s = (true, { s with hnc := true, hn := true, nextpos := i }) := by
      simp only [Tab.itr, if_neg hs, hh]
      simp only [hc, Bool.false_eq_true, if_false, false_and]
      have h1 : ((i : Int) - 1 + 1).toNat = i := by omega
      have h2 : decide ((i : Int) - 1 + 1 < (t.rows.length : Int)) = true := by simp; omega
      rw [h1, h2]
    rw [List.drop_eq_getElem_cons hlt, List.map_cons, yields_cons, hN]
    refine ⟨rfl, ?_, ?_⟩
    · simp only [Tab.itr]
      have h2 : ((i : Int)).toNat % 2 ^ 32 = i := by
        rw [Int.toNat_natCast]
        exact Nat.mod_eq_of_lt (by omega)
      rw [h2, List.getElem?_eq_getElem hlt]
      simp
    · refine ih (i + 1) _ (by omega) ?_ rfl
      simp only [Tab.itr]
      omega

/-- Rows that agree on the first two columns. -/
def Alike (a b : Row) : Prop := a[0]? = b[0]? ∧ a[1]? = b[1]?

instance (a b : Row) : Decidable (Alike a b) := by unfold Alike; infer_instance

/-- The rows, split into the longest runs of rows that agree on the first two columns. -/
inductive Runs : List Row → List (Row × Nat) → Prop
  | nil : Runs [] []
  | run {r : Row} {g l : List Row} {o : List (Row × Nat)} : (∀ x ∈ g, Alike r x) → (∀ x, l.head? = some x → ¬ Alike r x) → Runs l o → Runs (r :: g ++ l) ((r, g.length + 1) :: o)

theorem same_iff {t : Tab} (hn : t.rows.length ≤ 2 ^ 32) {i j : Nat} (hi : i < t.rows.length) (hj : j < t.rows.length) : t.same i j = true ↔ Alike t.rows[i] t.rows[j] := by
  unfold Tab.same Tab.at Alike
  have h1 : ((i : Int)).toNat % 2 ^ 32 = i := by rw [Int.toNat_natCast]; exact Nat.mod_eq_of_lt (by omega)
  have h2 : ((j : Int)).toNat % 2 ^ 32 = j := by rw [Int.toNat_natCast]; exact Nat.mod_eq_of_lt (by omega)
  rw [h1, h2, List.getElem?_eq_getElem hi, List.getElem?_eq_getElem hj]
  simp

theorem skip_spec {t : Tab} (hn : t.rows.length ≤ 2 ^ 32) {r : Row} {g l : List Row} {i : Nat} (hd : t.rows.drop i = r :: g ++ l) (hg : ∀ x ∈ g, Alike r x)
    (hl : ∀ x, l.head? = some x → ¬ Alike r x) : ∀ (n k : Nat), k ≤ g.length + 1 → g.length + 1 - k < n + 1 → n ≤ t.rows.length →
      t.skip i n (i + k) = i + (g.length + 1) := by
  have hi : i < t.rows.length := by
    have := congrArg List.length hd
    simp at this
    omega
  have hr : t.rows[i] = r := by
    rw [List.drop_eq_getElem_cons hi] at hd
    exact (List.cons.inj hd).1
  have hlen : t.rows.length = i + (g.length + 1 + l.length) := by
    have := congrArg List.length hd
    simp at this
    omega
  have hget : ∀ k, t.rows[i + k]? = (r :: g ++ l)[k]? := by
    intro k
    rw [← hd, List.getElem?_drop]
  intro n
  induction n with
  | zero =>
    intro k h1 h2 _
    unfold Tab.skip
    omega
  | succ n ih =>
    intro k h1 h2 h3
    unfold Tab.skip
    by_cases hk : k = g.length + 1
    · subst hk
      rw [if_neg]
      rintro ⟨h4, h5⟩
      rw [same_iff hn hi h4, hr] at h5
      refine hl t.rows[i + (g.length + 1)] ?_ h5
      have := hget (g.length + 1)
      rw [List.getElem?_eq_getElem h4] at this
      rw [this, List.getElem?_append_right (by simp)]
      simp [List.head?_eq_getElem?]
    · rw [if_pos]
      · exact ih (k + 1) (by omega) (by omega) (by omega)
      · have h4 : i + k < t.rows.length := by omega
        refine ⟨h4, (same_iff hn hi h4).2 ?_⟩
        rw [hr]
        have := hget k
        rw [List.getElem?_eq_getElem h4, List.getElem?_append_left (by simp; omega)] at this
        have hm : t.rows[i + k] ∈ r :: g := List.mem_of_getElem? this.symm
        rcases List.mem_cons.1 hm with he | he
        · rw [he]
          exact ⟨rfl, rfl⟩
        · exact hg _ he

/-- After `next`, on the first row of a run. -/
theorem itr_runs {t : Tab} (hs : t.size ≠ 0) (hn : t.rows.length ≤ 2 ^ 32) {l : List Row} {o : List (Row × Nat)} (h : Runs l o) : ∀ (i : Nat) (s : St), t.rows.drop i = l →
    (∃ s' : St, s'.nextpos = i ∧ s'.hnc = true ∧ ((t.itr true).hasNext s) = (decide (i < t.rows.length), s')) →
    Yields (t.itr true) s (o.map fun e => (some e.1, e.2)) := by
  induction h with
  | nil =>
    intro i s hd hs'
    obtain ⟨s', -, -, h3⟩ := hs'
    rw [List.map_nil, yields_nil, h3]
    have := congrArg List.length hd
    simp at this
    simp
    omega
  | @run r g l o hg hl _ ih =>
    intro i s hd hs'
    obtain ⟨s', h1, h2, h3⟩ := hs'
    have hi : i < t.rows.length := by
      have := congrArg List.length hd
      simp at this
      omega
    have hlen : t.rows.length = i + (g.length + 1 + l.length) := by
      have := congrArg List.length hd
      simp at this
      omega
    have hr : t.rows[i] = r := by
      rw [List.drop_eq_getElem_cons hi] at hd
      exact (List.cons.inj hd).1
    rw [List.map_cons, yields_cons, h3]
    refine ⟨by simpa using hi, ?_, ?_⟩
    · simp only [Tab.itr, h1, if_true]
      have h4 : ((i : Int)).toNat % 2 ^ 32 = i := by rw [Int.toNat_natCast]; exact Nat.mod_eq_of_lt (by omega)
      rw [h4, List.getElem?_eq_getElem hi, hr]
      have := skip_spec hn hd hg hl t.rows.length 0 (by omega) (by omega) (Nat.le_refl _)
      rw [Nat.add_zero] at this
      rw [this, Int.toNat_natCast]
      simp
    · refine ih (i + (g.length + 1)) _ ?_ ?_
      · rw [← List.drop_drop, hd]
        have : (r :: g ++ l) = (r :: g) ++ l := rfl
        rw [this, List.drop_left' (by simp)]
      · have := skip_spec hn hd hg hl t.rows.length 0 (by omega) (by omega) (Nat.le_refl _)
        rw [Nat.add_zero] at this
        refine ⟨⟨(i : Int), true, decide (i + (g.length + 1) < t.rows.length), i + (g.length + 1)⟩, rfl, rfl, ?_⟩
        simp only [Tab.itr, h1, if_neg hs]
        rw [if_neg (by simp), if_pos ⟨trivial, by omega⟩, this]

end Trident.Join.Table
