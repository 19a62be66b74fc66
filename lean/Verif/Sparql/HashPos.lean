import Verif.Sparql.HashProofs
/-! # The numbers of the rows of a hash join -/
namespace Trident.Sparql.Hash

/-- No entry has the number 0. -/
def Chain.Pos (c : Chain) : Prop := ∀ e ∈ c.entries, e.1 ≠ 0

/-- The same for all entries of a table. -/
def SlotsPos (t : Nat → Option Chain) : Prop := ∀ s c, t s = some c → c.Pos

theorem slotsPos_put {t : Nat → Option Chain} (h : SlotsPos t) {s : Nat} {c : Chain} (hc : c.Pos) : SlotsPos (put t s c) := by
  intro s' c' h'
  unfold put at h'
  split at h'
  · cases h'; exact hc
  · exact h s' c' h'

theorem place_pos (n : Nat) : ∀ (k : Nat) (first : Bool) (e : Chain) (t : Nat → Option Chain), SlotsPos t → e.Pos →
    SlotsPos (place n k first e t).2 ∧ ∀ e', (place n k first e t).1 = some e' → e'.Pos := by
  intro k
  induction k with
  | zero => intro first e t ht he; exact ⟨ht, fun e' h => by cases h; exact he⟩
  | succ k ih =>
    intro first e t ht he
    simp only [place]
    generalize (if first = true then hash1 e.key n else hash2 e.key n) = s
    match hs : t s with
    | none => exact ⟨slotsPos_put ht he, fun e' h => nomatch h⟩
    | some e' => exact ih (!first) e' (put t s e) (slotsPos_put ht he) (ht s e' hs)

theorem foldlM_pos {f : Table → Chain → Option Table} (hf : ∀ T c T', SlotsPos T.slot → c.Pos → f T c = some T' → SlotsPos T'.slot) :
    ∀ (l : List Chain) (T T' : Table), SlotsPos T.slot → (∀ c ∈ l, c.Pos) → l.foldlM f T = some T' → SlotsPos T'.slot := by
  intro l
  induction l with
  | nil => intro T T' hT _ h; cases h; exact hT
  | cons c l ih =>
    intro T T' hT hl h
    rw [List.foldlM_cons] at h
    obtain ⟨T1, h1, h2⟩ := Option.bind_eq_some_iff.1 h
    exact ih T1 T' (hf T c T1 hT (hl c (by simp)) h1) (fun d hd => hl d (List.mem_cons_of_mem _ hd)) h2

theorem insert_pos : ∀ (f : Nat) (e : Chain) (T T' : Table), SlotsPos T.slot → e.Pos → insert f e T = some T' → SlotsPos T'.slot := by
  intro f
  induction f with
  | zero => intro e T T' _ _ h; cases h
  | succ f ih =>
    intro e T T' hT he h
    obtain ⟨p1, p2⟩ := place_pos T.n T.n true e T.slot hT he
    simp only [insert] at h
    match hp : place T.n T.n true e T.slot with
    | (none, t) => rw [hp] at h p1; cases h; exact p1
    | (some e', t) =>
      rw [hp] at h p1 p2
      obtain ⟨T1, h1, h2⟩ := Option.bind_eq_some_iff.1 h
      refine ih e' T1 T' (foldlM_pos (fun T c T' a b d => ih c T T' a b d) _ _ T1 ?_ ?_ h1) (p2 e' rfl) h2
      · intro s c hc; cases hc
      · intro c hc
        unfold entries at hc
        obtain ⟨s, _, hs⟩ := List.mem_filterMap.1 hc
        exact p1 s c hs

theorem aggregateIn_pos {cnt : Nat} {tail : Tup} : ∀ {l l' : List (Nat × Tup)}, (∀ e ∈ l, e.1 ≠ 0) → aggregateIn cnt tail l = some l' → ∀ e ∈ l', e.1 ≠ 0 := by
  intro l
  induction l with
  | nil => intro l' _ h; cases h
  | cons p l ih =>
    intro l' hl h
    simp only [aggregateIn] at h
    split at h
    · cases h
      intro e he
      rcases List.mem_cons.1 he with e1 | e1
      · subst e1; have := hl p (by simp); show p.1 + cnt ≠ 0; omega
      · exact hl e (List.mem_cons_of_mem _ e1)
    · obtain ⟨m, h1, h2⟩ := Option.map_eq_some_iff.1 h
      subst h2
      intro e he
      rcases List.mem_cons.1 he with e1 | e1
      · subst e1; exact hl e (by simp)
      · exact ih (fun e he => hl e (List.mem_cons_of_mem _ he)) h1 e e1

theorem find_slot {T : Table} {key s : Nat} {c : Chain} (h : find T key = some (s, c)) : T.slot s = some c := by
  unfold find at h
  have hsec : ∀ {s c}, find.second T key = some (s, c) → T.slot s = some c := by
    intro s c h
    unfold find.second at h
    split at h
    · rename_i e he
      split at h
      · cases h; exact he
      · cases h
    · cases h
  split at h
  · rename_i e he
    split at h
    · cases h; exact he
    · exact hsec h
  · exact hsec h

theorem buildRow_pos {ok : Tup → Bool} {T T' : Table} {r : Row} (hT : SlotsPos T.slot) (hr : r.1 ≠ 0) (h : buildRow ok T r = some T') : SlotsPos T'.slot := by
  unfold buildRow at h
  split at h
  · cases h; exact hT
  · split at h
    · rename_i s c hf
      cases h
      refine slotsPos_put hT ?_
      have hc := hT s c (find_slot hf)
      intro e he
      match ha : aggregateIn r.1 r.2.tail c.entries with
      | some l => rw [ha] at he; exact aggregateIn_pos hc ha e he
      | none =>
        rw [ha] at he
        rcases List.mem_cons.1 he with e1 | e1
        · subst e1; exact hr
        · exact hc e e1
    · exact insert_pos _ _ _ _ hT (fun e he => by rw [List.mem_singleton.1 he]; exact hr) h

theorem build_pos {ok : Tup → Bool} {left : List Row} (hl : ∀ r ∈ left, r.1 ≠ 0) {T : Table} (h : build ok left = some T) : SlotsPos T.slot := by
  unfold build at h
  have : ∀ (l : List Row) (T T' : Table), SlotsPos T.slot → (∀ r ∈ l, r.1 ≠ 0) → l.foldlM (buildRow ok) T = some T' → SlotsPos T'.slot := by
    intro l
    induction l with
    | nil => intro T T' hT _ h; cases h; exact hT
    | cons r l ih =>
      intro T T' hT hl h
      rw [List.foldlM_cons] at h
      obtain ⟨T1, h1, h2⟩ := Option.bind_eq_some_iff.1 h
      exact ih T1 T' (buildRow_pos hT (hl r (by simp)) h1) (fun d hd => hl d (List.mem_cons_of_mem _ hd)) h2
  exact this left _ T (fun s c hc => by cases hc) hl h

theorem probe_pos {T : Table} (hT : SlotsPos T.slot) {wl : Nat} : ∀ (right : List Row) (reg : Nat), (∀ r ∈ right, r.1 ≠ 0) →
    ∀ x ∈ (probe T false wl reg right).1, x.1 ≠ 0 := by
  intro right
  induction right with
  | nil => intro reg _ x hx; cases hx
  | cons r rs ih =>
    intro reg hr x hx
    have hrs : ∀ r ∈ rs, r.1 ≠ 0 := fun y hy => hr y (List.mem_cons_of_mem _ hy)
    simp only [probe] at hx
    match hc : lookup T (col r.2 0) with
    | none => rw [hc] at hx; exact ih reg hrs x hx
    | some c =>
      rw [hc] at hx
      rcases List.mem_append.1 hx with e1 | e1
      · obtain ⟨e, he, rfl⟩ := List.mem_map.1 e1
        unfold lookup at hc
        obtain ⟨⟨s, c'⟩, h1, h2⟩ := Option.map_eq_some_iff.1 hc
        dsimp only at h2
        subst h2
        exact Nat.mul_ne_zero (hT s c' (find_slot h1) e he) (hr r (by simp))
      · exact ih c.key hrs x e1

/-- The rows of an inner join of rows with numbers that are not 0 have such numbers. -/
theorem hashJoin_pos {ok : Tup → Bool} {wl wr reg0 : Nat} {left right out : List Row} (hl : ∀ r ∈ left, r.1 ≠ 0) (hr : ∀ r ∈ right, r.1 ≠ 0)
    (h : hashJoin ok false false wl wr reg0 left right = some out) : ∀ x ∈ out, x.1 ≠ 0 := by
  unfold hashJoin at h
  obtain ⟨T, h1, h2⟩ := Option.map_eq_some_iff.1 h
  subst h2
  intro x hx
  match hz : right.getLast? with
  | none => rw [hz] at hx; cases hx
  | some z =>
    rw [hz] at hx
    simp only [Bool.false_eq_true, if_false, List.append_nil] at hx
    exact probe_pos (build_pos hl h1) right reg0 hr x hx

end Trident.Sparql.Hash
