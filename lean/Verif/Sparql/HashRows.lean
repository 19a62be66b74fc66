import Verif.Sparql.HashJoin
/-! # Hash joins: every row of the result is a pair of rows of the inputs -/
namespace Trident.Sparql.Hash

def All (P : Chain → Prop) (t : Nat → Option Chain) : Prop := ∀ s c, t s = some c → P c

theorem All.put {P : Chain → Prop} {t} (h : All P t) {s : Nat} {c : Chain} (hc : P c) : All P (put t s c) := by
  intro s' c' e
  unfold Hash.put at e
  split at e
  · cases e; exact hc
  · exact h s' c' e

theorem place_all {P : Chain → Prop} (n k : Nat) (first : Bool) (e : Chain) (t) (he : P e) (h : All P t) :
    (∀ x, (place n k first e t).1 = some x → P x) ∧ All P (place n k first e t).2 := by
  induction k generalizing first e t with
  | zero => exact ⟨fun x hx => by cases hx; exact he, h⟩
  | succ k ih =>
    rw [place]
    generalize (if first = true then hash1 e.key n else hash2 e.key n) = s
    match hs : t s with
    | none => exact ⟨fun x hx => (by cases hx), h.put he⟩
    | some e' => exact ih (!first) e' _ (h s e' hs) (h.put he)

theorem insert_all {P : Chain → Prop} (f : Nat) : ∀ (e : Chain) (T T' : Table), P e → All P T.slot → insert f e T = some T' → All P T'.slot := by
  induction f with
  | zero => intro e T T' _ _ h; cases h
  | succ f ih =>
    intro e T T' he hT h
    rw [insert] at h
    have hp := place_all T.n T.n true e T.slot he hT
    match hpl : place T.n T.n true e T.slot with
    | (none, t) =>
      rw [hpl] at h hp
      cases h; exact hp.2
    | (some e', t) =>
      rw [hpl] at h hp
      obtain ⟨T1, h1, h2⟩ := Option.bind_eq_some_iff.1 h
      refine ih e' T1 T' (hp.1 e' rfl) ?_ h2
      have hent : ∀ c ∈ entries T.n t, P c := by
        intro c hc
        obtain ⟨s, _, hs⟩ := List.mem_filterMap.1 hc
        exact hp.2 s c hs
      revert h1
      have : All P (⟨2 * T.n, fun _ => none⟩ : Table).slot := fun s c e => by cases e
      revert this
      generalize (⟨2 * T.n, fun _ => none⟩ : Table) = T0
      generalize entries T.n t = l at hent
      induction l generalizing T0 with
      | nil => intro a b; cases b; exact a
      | cons c l ihl =>
        intro a b
        rw [List.foldlM_cons] at b
        obtain ⟨T2, b1, b2⟩ := Option.bind_eq_some_iff.1 b
        exact ihl (hent := fun x hx => hent x (List.mem_cons_of_mem _ hx)) (T0 := T2) (ih c T0 T2 (hent c (by simp)) a b1) b2

/-- Every entry is a row of the left side, and occurs. -/
def Good (left : List Row) (c : Chain) : Prop := ∀ e ∈ c.entries, 0 < e.1 ∧ ∃ l ∈ left, l.2 = c.key :: e.2

theorem aggregateIn_mem {cnt : Nat} {tail : Tup} {l l' : List (Nat × Tup)} (h : aggregateIn cnt tail l = some l') :
    ∀ e ∈ l', ∃ e0 ∈ l, e0.1 ≤ e.1 ∧ e0.2 = e.2 := by
  induction l generalizing l' with
  | nil => cases h
  | cons p l ih =>
    rw [aggregateIn] at h
    split at h
    · cases h
      intro e he
      rcases List.mem_cons.1 he with rfl | he
      · exact ⟨p, by simp, by simp only; omega, rfl⟩
      · exact ⟨e, List.mem_cons_of_mem _ he, Nat.le_refl _, rfl⟩
    · obtain ⟨l2, h1, h2⟩ := Option.map_eq_some_iff.1 h
      subst h2
      intro e he
      rcases List.mem_cons.1 he with rfl | he
      · exact ⟨e, by simp, Nat.le_refl _, rfl⟩
      · obtain ⟨e0, a, b⟩ := ih h1 e he
        exact ⟨e0, List.mem_cons_of_mem _ a, b⟩

theorem find_mem {T : Table} {key s : Nat} {c : Chain} (h : find T key = some (s, c)) : T.slot s = some c ∧ c.key = key := by
  unfold find at h
  have h2 : find.second T key = some (s, c) → T.slot s = some c ∧ c.key = key := by
    unfold find.second
    match h2 : T.slot (hash2 key T.n) with
    | none => intro x; cases x
    | some e =>
      simp only
      split
      · rename_i hk; intro x; cases x; exact ⟨h2, hk⟩
      · intro x; cases x
  match h1 : T.slot (hash1 key T.n) with
  | none => rw [h1] at h; exact h2 h
  | some e =>
    rw [h1] at h
    simp only at h
    split at h
    · rename_i hk; cases h; exact ⟨h1, hk⟩
    · exact h2 h

theorem buildRow_all {left : List Row} (ok : Tup → Bool) (r : Row) (hr : r ∈ left) (h0 : 0 < r.1) (hne : r.2 ≠ []) (T T' : Table) (hT : All (Good left) T.slot)
    (h : buildRow ok T r = some T') : All (Good left) T'.slot := by
  have hcons : r.2 = col r.2 0 :: r.2.tail := by
    match hh : r.2, hne with
    | x :: t, _ => rfl
  unfold buildRow at h
  split at h
  · cases h; exact hT
  · match hf : find T (col r.2 0) with
    | none =>
      rw [hf] at h
      refine insert_all depth _ T T' ?_ hT h
      intro e he
      rw [List.mem_singleton] at he
      subst he
      exact ⟨h0, r, hr, hcons⟩
    | some (s, c) =>
      rw [hf] at h
      obtain ⟨hs, hk⟩ := find_mem hf
      cases h
      have hg := hT s c hs
      apply All.put hT
      intro e he
      simp only at he ⊢
      match ha : aggregateIn r.1 r.2.tail c.entries with
      | none =>
        rw [ha] at he
        rcases List.mem_cons.1 he with rfl | he
        · exact ⟨h0, r, hr, by rw [hk]; exact hcons⟩
        · exact hg e he
      | some l' =>
        rw [ha] at he
        obtain ⟨e0, a, b, b'⟩ := aggregateIn_mem ha e he
        obtain ⟨g1, g2⟩ := hg e0 a
        exact ⟨by omega, by rw [← b']; exact g2⟩

theorem build_all (ok : Tup → Bool) (left : List Row) (h0 : ∀ l ∈ left, 0 < l.1 ∧ l.2 ≠ []) (T : Table) (h : build ok left = some T) : All (Good left) T.slot := by
  unfold build at h
  have : All (Good left) (⟨1024, fun _ => none⟩ : Table).slot := fun s c e => by cases e
  revert h this
  generalize (⟨1024, fun _ => none⟩ : Table) = T0
  suffices hm : ∀ (l : List Row) (T0 : Table), (∀ r ∈ l, r ∈ left) → l.foldlM (buildRow ok) T0 = some T → All (Good left) T0.slot → All (Good left) T.slot from hm left T0 fun _ h => h
  intro l
  induction l with
  | nil => intro T0 _ a b; cases a; exact b
  | cons r l ih =>
    intro T0 hl a b
    rw [List.foldlM_cons] at a
    obtain ⟨T2, b1, b2⟩ := Option.bind_eq_some_iff.1 a
    have hr := hl r (by simp)
    exact ih T2 (fun x hx => hl x (List.mem_cons_of_mem _ hx)) b2 (buildRow_all ok r hr (h0 r hr).1 (h0 r hr).2 T0 T2 b b1)

/-- Every row of the result of an inner join is a row of the left side followed by one of the right side, and occurs. -/
theorem hashJoin_rows (ok : Tup → Bool) (wl wr reg0 : Nat) (left right out : List Row) (hl : ∀ l ∈ left, 0 < l.1 ∧ l.2 ≠ []) (hr : ∀ r ∈ right, 0 < r.1)
    (h : hashJoin ok false false wl wr reg0 left right = some out) :
    ∀ x ∈ out, 0 < x.1 ∧ ∃ l ∈ left, ∃ r ∈ right, x.2 = l.2 ++ r.2 := by
  unfold hashJoin at h
  obtain ⟨T, hb, rfl⟩ := Option.map_eq_some_iff.1 h
  have hall := build_all ok left hl T hb
  have main : ∀ (rs : List Row) (reg : Nat), (∀ r ∈ rs, r ∈ right) → ∀ x ∈ (probe T false wl reg rs).1, 0 < x.1 ∧ ∃ l ∈ left, ∃ r ∈ right, x.2 = l.2 ++ r.2 := by
    intro rs
    induction rs with
    | nil => intro reg _ x hx; cases hx
    | cons r rs ih =>
      intro reg hrs x hx
      rw [probe] at hx
      match hlk : lookup T (col r.2 0) with
      | some c =>
        rw [hlk] at hx
        simp only at hx
        rcases List.mem_append.1 hx with hx | hx
        · obtain ⟨e, he, rfl⟩ := List.mem_map.1 hx
          obtain ⟨p, hp1, hp2⟩ := Option.map_eq_some_iff.1 hlk
          have hm := find_mem (s := p.1) (c := p.2) hp1
          have hg := hall p.1 p.2 hm.1
          rw [hp2] at hg
          obtain ⟨g1, l, g2, g3⟩ := hg e he
          exact ⟨Nat.mul_pos g1 (hr r (hrs r (by simp))), l, g2, r, hrs r (by simp), by rw [g3]⟩
        · exact ih _ (fun y hy => hrs y (List.mem_cons_of_mem _ hy)) x hx
      | none =>
        rw [hlk] at hx
        simp only [Bool.false_eq_true, if_false] at hx
        exact ih _ (fun y hy => hrs y (List.mem_cons_of_mem _ hy)) x hx
  match right.getLast? with
  | none => intro x hx; cases hx
  | some z =>
    simp only [Bool.false_eq_true, if_false, List.append_nil]
    exact main right reg0 fun _ h => h

end Trident.Sparql.Hash
