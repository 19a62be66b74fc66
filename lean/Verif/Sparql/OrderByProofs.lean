import Verif.Sparql.OrderBy
import Verif.Sparql.OrderBySpec
/-! # ORDER BY: proofs -/
namespace Trident.Sparql.OrderBy

open Spec

theorem Cell.irrefl (a : Cell) : ¬ a.lt a := by
  cases a <;> simp only [Cell.lt, not_false_eq_true]
  · omega
  · exact List.lt_irrefl _

theorem Cell.trans {a b c : Cell} : a.lt b → b.lt c → a.lt c := by
  cases a <;> cases b <;> cases c <;> simp only [Cell.lt, false_implies, implies_true, forall_const]
  · intro h1 h2; omega
  · exact fun h1 h2 => List.lt_trans h1 h2

theorem Cell.cases (a b : Cell) : a.lt b ∨ a = b ∨ b.lt a := by
  cases a <;> cases b <;> simp only [Cell.lt, true_or, or_true, Cell.number.injEq, Cell.text.injEq]
  · omega
  · rename_i s t
    by_cases h : s < t
    · exact .inl h
    · by_cases h' : t < s
      · exact .inr (.inr h')
      · exact .inr (.inl (List.le_antisymm (List.not_lt.1 h') (List.not_lt.1 h)))

theorem Before.irrefl (ks : List (Nat × Bool)) (a : Nat → Cell) : ¬ Before ks a a := by
  induction ks with
  | nil => exact id
  | cons k ks ih =>
    rintro (h | h)
    · split at h <;> exact Cell.irrefl _ h
    · exact ih h.2

theorem Before.trans {ks : List (Nat × Bool)} {a b c : Nat → Cell} (h1 : Before ks a b) (h2 : Before ks b c) : Before ks a c := by
  induction ks with
  | nil => exact h1
  | cons k ks ih =>
    obtain ⟨i, d⟩ := k
    simp only [Before] at h1 h2 ⊢
    rcases h1 with h1 | ⟨e1, h1⟩
    · rcases h2 with h2 | ⟨e2, h2⟩
      · left
        cases d <;> simp only [Bool.false_eq_true, if_true, if_false] at *
        · exact Cell.trans h1 h2
        · exact Cell.trans h2 h1
      · left; rwa [← e2]
    · rcases h2 with h2 | ⟨e2, h2⟩
      · left; rwa [e1]
      · exact .inr ⟨e1.trans e2, ih h1 h2⟩

/-- Rows of which none comes first are equal on all keys. -/
theorem Before.same {ks : List (Nat × Bool)} {a b : Nat → Cell} : (¬ Before ks a b ∧ ¬ Before ks b a) ↔ ∀ k ∈ ks, a k.1 = b k.1 := by
  induction ks with
  | nil => simp [Before]
  | cons k ks ih =>
    obtain ⟨i, d⟩ := k
    simp only [Before, List.mem_cons, forall_eq_or_imp, ← ih]
    constructor
    · rintro ⟨h1, h2⟩
      have e : a i = b i := by
        rcases Cell.cases (a i) (b i) with h | h | h
        · cases d
          · exact absurd (.inl (by simpa using h)) h1
          · exact absurd (.inl (by simpa using h)) h2
        · exact h
        · cases d
          · exact absurd (.inl (by simpa using h)) h2
          · exact absurd (.inl (by simpa using h)) h1
      exact ⟨e, fun h => h1 (.inr ⟨e, h⟩), fun h => h2 (.inr ⟨e.symm, h⟩)⟩
    · rintro ⟨e, h1, h2⟩
      rw [e]
      constructor
      · rintro (h | h)
        · split at h <;> exact Cell.irrefl _ h
        · exact h1 h.2
      · rintro (h | h)
        · split at h <;> exact Cell.irrefl _ h
        · exact h2 h.2

/-- What a value stands for. -/
def cellOf (E : Env) (v : Nat) : Cell :=
  if v = 2 ^ 64 - 1 then .unbound
  else if isNumeric v then .number (v % 2 ^ 62)
  else match E.text v with
    | some t => .text t
    | none => .unbound

/-- Nothing, or a term of the dictionary. -/
def IsTerm (E : Env) (v : Nat) : Prop := v = 2 ^ 64 - 1 ∨ (v < 2 ^ 62 ∧ (E.text v).isSome)
/-- Nothing, or an integer that was computed (`DictMgmt::setIntValue`, /repo/include/trident/kb/dictmgmt.h:232-234). -/
def IsInt (v : Nat) : Prop := v = 2 ^ 64 - 1 ∨ (2 ^ 62 ≤ v ∧ v < 2 ^ 63)

theorem memcmp_lt : ∀ {s t : List Nat},
    (memcmp (min s.length t.length) s t = .lt ∨ (memcmp (min s.length t.length) s t = .eq ∧ s.length < t.length)) ↔ s < t := by
  intro s
  induction s with
  | nil =>
    intro t
    cases t with
    | nil => simp [memcmp]
    | cons b t => simp [memcmp]
  | cons a s ih =>
    intro t
    cases t with
    | nil => simp [memcmp]
    | cons b t =>
      rw [List.cons_lt_cons_iff, ← ih, List.length_cons, List.length_cons, Nat.succ_min_succ, memcmp]
      by_cases h1 : a < b
      · simp [h1]
      · by_cases h2 : b < a
        · rw [if_neg h1, if_pos h2]
          have : a ≠ b := by omega
          simp [h1, this]
        · have : a = b := by omega
          subst this
          rw [if_neg h1, if_neg h1]
          simp

theorem memcmp_swap : ∀ (n : Nat) (s t : List Nat), memcmp n t s = (memcmp n s t).swap := by
  intro n
  induction n with
  | zero => intro s t; cases s <;> cases t <;> rfl
  | succ n ih =>
    intro s t
    cases s with
    | nil => cases t <;> rfl
    | cons a s =>
      cases t with
      | nil => rfl
      | cons b t =>
        rw [memcmp, memcmp]
        by_cases h1 : a < b
        · rw [if_neg (by omega), if_pos h1, if_pos h1]; rfl
        · by_cases h2 : b < a
          · rw [if_pos h2, if_neg h1, if_pos h2]; rfl
          · rw [if_neg h1, if_neg h2, if_neg h1, if_neg h2, ih]

/-- The result of the comparison of two cells. -/
def Says (r : Except Unit Ordering) (a b : Cell) : Prop := (r = .ok .lt ∧ a.lt b) ∨ (r = .ok .eq ∧ a = b) ∨ (r = .ok .gt ∧ b.lt a)

theorem compareValues_int {E : Env} {v w : Nat} (hv : IsInt v) (hw : IsInt w) : Says (compareValues E v w) (cellOf E v) (cellOf E w) := by
  unfold compareValues
  by_cases h : v = w
  · subst h; rw [if_pos rfl]; exact .inr (.inl ⟨rfl, rfl⟩)
  rw [if_neg h]
  by_cases h1 : v = 2 ^ 64 - 1
  · rw [if_pos h1]
    refine .inl ⟨rfl, ?_⟩
    rcases hw with hw | hw
    · exact absurd (h1.trans hw.symm) h
    · unfold cellOf
      rw [if_pos h1, if_neg (by omega), if_pos (by unfold isNumeric; rw [decide_eq_true_iff]; omega)]
      trivial
  rw [if_neg h1]
  rcases hv with hv | hv
  · exact absurd hv h1
  by_cases h2 : w = 2 ^ 64 - 1
  · rw [if_pos h2]
    refine .inr (.inr ⟨rfl, ?_⟩)
    unfold cellOf
    rw [if_pos h2, if_neg h1, if_pos (by unfold isNumeric; rw [decide_eq_true_iff]; omega)]
    trivial
  rw [if_neg h2]
  rcases hw with hw | hw
  · exact absurd hw h2
  have n1 : isNumeric v = true := by unfold isNumeric; rw [decide_eq_true_iff]; omega
  have n2 : isNumeric w = true := by unfold isNumeric; rw [decide_eq_true_iff]; omega
  have c1 : cellOf E v = .number (v % 2 ^ 62) := by unfold cellOf; rw [if_neg h1, if_pos n1]
  have c2 : cellOf E w = .number (w % 2 ^ 62) := by unfold cellOf; rw [if_neg h2, if_pos n2]
  rw [n1, n2, c1, c2, Bool.and_self, if_pos rfl]
  unfold compareNumbers
  rw [if_pos (by omega)]
  rcases Nat.lt_trichotomy (v % 2 ^ 62) (w % 2 ^ 62) with hc | hc | hc
  · exact .inl ⟨by rw [Nat.compare_eq_lt.2 hc], hc⟩
  · omega
  · exact .inr (.inr ⟨by rw [Nat.compare_eq_gt.2 hc], hc⟩)

theorem compareValues_term {E : Env} (hs : E.stale = false) (hinj : ∀ v w t, E.text v = some t → E.text w = some t → v = w) {v w : Nat} (hv : IsTerm E v) (hw : IsTerm E w) :
    Says (compareValues E v w) (cellOf E v) (cellOf E w) := by
  have key : ∀ {v}, v < 2 ^ 62 → ∀ {t}, E.text v = some t → isNumeric v = false ∧ v ≠ 2 ^ 64 - 1 ∧ cellOf E v = .text t ∧ lookup E v = some (.ok t) := by
    intro v hv t ht
    have n1 : isNumeric v = false := by unfold isNumeric; rw [decide_eq_false_iff_not]; omega
    refine ⟨n1, by omega, ?_, ?_⟩
    · unfold cellOf; rw [if_neg (by omega), n1, if_neg (by decide), ht]
    · unfold lookup; rw [ht, hs]; rfl
  unfold compareValues
  by_cases h : v = w
  · subst h; rw [if_pos rfl]; exact .inr (.inl ⟨rfl, rfl⟩)
  rw [if_neg h]
  rcases hv with h1 | ⟨hv1, hv2⟩
  · rw [if_pos h1]
    refine .inl ⟨rfl, ?_⟩
    rcases hw with hw | ⟨hw1, hw2⟩
    · exact absurd (h1.trans hw.symm) h
    · obtain ⟨t, ht⟩ := Option.isSome_iff_exists.1 hw2
      rw [(key hw1 ht).2.2.1, show cellOf E v = .unbound by unfold cellOf; rw [if_pos h1]]
      trivial
  · obtain ⟨t, ht⟩ := Option.isSome_iff_exists.1 hv2
    obtain ⟨n1, b1, c1, l1⟩ := key hv1 ht
    rw [if_neg b1]
    rcases hw with h2 | ⟨hw1, hw2⟩
    · rw [if_pos h2, c1, show cellOf E w = .unbound by unfold cellOf; rw [if_pos h2]]
      exact .inr (.inr ⟨rfl, trivial⟩)
    · obtain ⟨u, hu⟩ := Option.isSome_iff_exists.1 hw2
      obtain ⟨n2, b2, c2, l2⟩ := key hw1 hu
      rw [if_neg b2, n1, Bool.false_and, if_neg (by decide), l1, l2, c1, c2]
      simp only [Except.bind]
      have hne : t ≠ u := by rintro rfl; exact h (hinj v w t ht hu)
      have h1 := memcmp_lt (s := t) (t := u)
      have h2 := memcmp_lt (s := u) (t := t)
      rw [memcmp_swap _ t u, Nat.min_comm] at h2
      cases hm : memcmp (min t.length u.length) t u with
      | lt => exact .inl ⟨rfl, h1.1 (.inl hm)⟩
      | gt => exact .inr (.inr ⟨rfl, h2.1 (.inl (by rw [hm]; rfl))⟩)
      | eq =>
        rw [hm] at h1 h2
        simp only
        by_cases g1 : t.length < u.length
        · rw [if_pos g1]; exact .inl ⟨rfl, h1.1 (.inr ⟨rfl, g1⟩)⟩
        · rw [if_neg g1]
          by_cases g2 : u.length < t.length
          · rw [if_pos g2]; exact .inr (.inr ⟨rfl, h2.1 (.inr ⟨rfl, g2⟩)⟩)
          · exfalso
            refine hne (List.le_antisymm (List.not_lt.1 fun h => ?_) (List.not_lt.1 fun h => ?_))
            · rcases h2.2 h with h | h
              · cases h
              · exact g2 h.2
            · rcases h1.2 h with h | h
              · cases h
              · exact g1 h.2

/-- The cells of a row. -/
def cells (E : Env) (r : Row) (i : Nat) : Cell := cellOf E (r.2.getD i (2 ^ 64 - 1))

/-- The cells of the keys of two rows can be compared. -/
def Comparable (E : Env) (ks : List Key) (a b : Row) : Prop :=
  ∀ k ∈ ks, k.slot < a.2.length ∧ k.slot < b.2.length ∧ k.slot < 2 ^ 64 - 1 ∧
    ((IsTerm E (a.2.getD k.slot (2 ^ 64 - 1)) ∧ IsTerm E (b.2.getD k.slot (2 ^ 64 - 1))) ∨ (IsInt (a.2.getD k.slot (2 ^ 64 - 1)) ∧ IsInt (b.2.getD k.slot (2 ^ 64 - 1))))

theorem less_iff {E : Env} (hs : E.stale = false) (hinj : ∀ v w t, E.text v = some t → E.text w = some t → v = w) {ks : List Key} {a b : Row} (h : Comparable E ks a b) :
    (less E ks a b = .ok true ∧ Before (ks.map fun k => (k.slot, k.desc)) (cells E a) (cells E b)) ∨
    (less E ks a b = .ok false ∧ ¬ Before (ks.map fun k => (k.slot, k.desc)) (cells E a) (cells E b)) := by
  induction ks with
  | nil => exact .inr ⟨rfl, id⟩
  | cons k ks ih =>
    obtain ⟨h1, h2, h3, h4⟩ := h k (by simp)
    have ih := ih fun k' hk => h k' (List.mem_cons_of_mem _ hk)
    have e1 : a.2[k.slot]? = some (a.2.getD k.slot (2 ^ 64 - 1)) := by rw [List.getD_eq_getElem?_getD, List.getElem?_eq_getElem h1]; rfl
    have e2 : b.2[k.slot]? = some (b.2.getD k.slot (2 ^ 64 - 1)) := by rw [List.getD_eq_getElem?_getD, List.getElem?_eq_getElem h2]; rfl
    simp only [less, List.map_cons, Before]
    rw [if_pos (by omega), e1, e2]
    simp only
    have main : ∀ v w, (IsTerm E v ∧ IsTerm E w) ∨ (IsInt v ∧ IsInt w) → Says (compareValues E v w) (cellOf E v) (cellOf E w) := fun v w h =>
      h.elim (fun h => compareValues_term hs hinj h.1 h.2) fun h => compareValues_int h.1 h.2
    have c1 : cells E a k.slot = cellOf E (a.2.getD k.slot (2 ^ 64 - 1)) := rfl
    have c2 : cells E b k.slot = cellOf E (b.2.getD k.slot (2 ^ 64 - 1)) := rfl
    rw [c1, c2]
    generalize a.2.getD k.slot (2 ^ 64 - 1) = v at h4 ⊢
    generalize b.2.getD k.slot (2 ^ 64 - 1) = w at h4 ⊢
    cases k.desc with
    | false =>
      simp only [Bool.false_eq_true, if_false]
      rcases main v w h4 with ⟨e, hc⟩ | ⟨e, hc⟩ | ⟨e, hc⟩ <;> rw [e] <;> simp only [Except.bind]
      · exact .inl ⟨trivial, .inl hc⟩
      · rcases ih with ⟨i1, i2⟩ | ⟨i1, i2⟩
        · exact .inl ⟨i1, .inr ⟨hc, i2⟩⟩
        · refine .inr ⟨i1, ?_⟩
          rintro (h | h)
          · rw [hc] at h; exact Cell.irrefl _ h
          · exact i2 h.2
      · refine .inr ⟨trivial, ?_⟩
        rintro (h | h)
        · exact Cell.irrefl _ (Cell.trans h hc)
        · rw [h.1] at hc; exact Cell.irrefl _ hc
    | true =>
      simp only [if_true]
      rcases main w v (h4.imp And.symm And.symm) with ⟨e, hc⟩ | ⟨e, hc⟩ | ⟨e, hc⟩ <;> rw [e] <;> simp only [Except.bind]
      · exact .inl ⟨trivial, .inl hc⟩
      · rcases ih with ⟨i1, i2⟩ | ⟨i1, i2⟩
        · exact .inl ⟨i1, .inr ⟨hc.symm, i2⟩⟩
        · refine .inr ⟨i1, ?_⟩
          rintro (h | h)
          · rw [hc] at h; exact Cell.irrefl _ h
          · exact i2 h.2
      · refine .inr ⟨trivial, ?_⟩
        rintro (h | h)
        · exact Cell.irrefl _ (Cell.trans h hc)
        · rw [h.1] at hc; exact Cell.irrefl _ hc

theorem less_true {E : Env} (hs : E.stale = false) (hinj : ∀ v w t, E.text v = some t → E.text w = some t → v = w) {ks : List Key} {a b : Row} (h : Comparable E ks a b) :
    less E ks a b = .ok true ↔ Before (ks.map fun k => (k.slot, k.desc)) (cells E a) (cells E b) := by
  rcases less_iff hs hinj h with ⟨h1, h2⟩ | ⟨h1, h2⟩
  · exact ⟨fun _ => h2, fun _ => h1⟩
  · rw [h1]; exact ⟨fun h => (by cases h), fun h => absurd h h2⟩

theorem less_false {E : Env} (hs : E.stale = false) (hinj : ∀ v w t, E.text v = some t → E.text w = some t → v = w) {ks : List Key} {a b : Row} (h : Comparable E ks a b) :
    less E ks a b = .ok false ↔ ¬ Before (ks.map fun k => (k.slot, k.desc)) (cells E a) (cells E b) := by
  rcases less_iff hs hinj h with ⟨h1, h2⟩ | ⟨h1, h2⟩
  · rw [h1]; exact ⟨fun h => (by cases h), fun h => absurd h2 h⟩
  · exact ⟨fun _ => h2, fun _ => h1⟩

theorem valid {E : Env} (hs : E.stale = false) (hinj : ∀ v w t, E.text v = some t → E.text w = some t → v = w) {ks : List Key} {rows : List Row}
    (h : ∀ a ∈ rows, ∀ b ∈ rows, Comparable E ks a b) : Valid (less E ks) rows where
  defined a ha b hb := by
    rcases less_iff hs hinj (h a ha b hb) with ⟨h1, _⟩ | ⟨h1, _⟩
    · exact ⟨_, h1⟩
    · exact ⟨_, h1⟩
  irrefl a ha := (less_false hs hinj (h a ha a ha)).2 (Before.irrefl _ _)
  trans a ha b hb c hc := by
    rw [less_true hs hinj (h a ha b hb), less_true hs hinj (h b hb c hc), less_true hs hinj (h a ha c hc)]
    exact Before.trans
  equiv a ha b hb c hc := by
    rw [less_false hs hinj (h a ha b hb), less_false hs hinj (h b hb a ha), less_false hs hinj (h b hb c hc), less_false hs hinj (h c hc b hb), less_false hs hinj (h a ha c hc),
      less_false hs hinj (h c hc a ha)]
    intro h1 h2 h3 h4
    have e1 := Before.same.1 ⟨h1, h2⟩
    have e2 := Before.same.1 ⟨h3, h4⟩
    exact Before.same.2 fun k hk => (e1 k hk).trans (e2 k hk)

/-- Rows can be sorted. -/
theorem exists_sorted {lt : Row → Row → Except Unit Bool} {rows : List Row} (h : Valid lt rows) :
    ∃ out : List Row, out.Perm rows ∧ out.Pairwise fun a b => lt b a = .ok false := by
  have ins : ∀ (x : Row) (l : List Row), x ∈ rows → (∀ y ∈ l, y ∈ rows) → l.Pairwise (fun a b => lt b a = .ok false) →
      ∃ out : List Row, out.Perm (x :: l) ∧ out.Pairwise fun a b => lt b a = .ok false := by
    intro x l hx
    induction l with
    | nil => intro _ _; exact ⟨[x], .refl _, by simp⟩
    | cons y l ih =>
      intro hl hp
      have hy := hl y (by simp)
      rw [List.pairwise_cons] at hp
      obtain ⟨r, hr⟩ := h.defined y hy x hx
      cases r with
      | false =>
        refine ⟨x :: y :: l, .refl _, List.pairwise_cons.2 ⟨fun z hz => ?_, List.pairwise_cons.2 hp⟩⟩
        rcases List.mem_cons.1 hz with rfl | hz'
        · exact hr
        · have hzr := hl z hz
          have hzy := hp.1 z hz'
          obtain ⟨r, h1⟩ := h.defined z hzr x hx
          cases r with
          | false => exact h1
          | true =>
            exfalso
            obtain ⟨r, h2⟩ := h.defined x hx y hy
            cases r with
            | true =>
              rw [h.trans z hzr x hx y hy h1 h2] at hzy
              cases hzy
            | false =>
              obtain ⟨r, h3⟩ := h.defined y hy z hzr
              cases r with
              | true => rw [h.trans y hy z hzr x hx h3 h1] at hr; cases hr
              | false =>
                have := (h.equiv z hzr y hy x hx hzy h3 hr h2).1
                rw [h1] at this
                cases this
      | true =>
        obtain ⟨out, h1, h2⟩ := ih (fun z hz => hl z (List.mem_cons_of_mem _ hz)) hp.2
        refine ⟨y :: out, (h1.cons y).trans (.swap ..), List.pairwise_cons.2 ⟨fun z hz => ?_, h2⟩⟩
        rcases List.mem_cons.1 (h1.mem_iff.1 hz) with rfl | hz
        · obtain ⟨r, h3⟩ := h.defined z hx y hy
          cases r with
          | false => exact h3
          | true =>
            have := h.trans z hx y hy z hx h3 hr
            rw [h.irrefl z hx] at this
            cases this
        · exact hp.1 z hz
  have : ∀ l : List Row, (∀ y ∈ l, y ∈ rows) → ∃ out : List Row, out.Perm l ∧ out.Pairwise fun a b => lt b a = .ok false := by
    intro l
    induction l with
    | nil => intro _; exact ⟨[], .refl _, .nil⟩
    | cons x l ih =>
      intro hl
      obtain ⟨out, h1, h2⟩ := ih fun y hy => hl y (List.mem_cons_of_mem _ hy)
      obtain ⟨out', h3, h4⟩ := ins x out (hl x (by simp)) (fun y hy => hl y (List.mem_cons_of_mem _ (h1.mem_iff.1 hy))) h2
      exact ⟨out', h3.trans (h1.cons x), h4⟩
  exact this rows fun _ h => h

end Trident.Sparql.OrderBy
