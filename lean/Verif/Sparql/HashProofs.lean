import Verif.Sparql.HashJoin
/-! # Lemmas on the hash join -/
namespace Trident.Sparql.Hash

theorem hash1_lt {key n : Nat} (hn : 0 < n) : hash1 key n < n := by
  have := Nat.and_le_right (n := key) (m := n - 1)
  unfold hash1; omega

theorem hash2_range {key n : Nat} (hn : 0 < n) : n ≤ hash2 key n ∧ hash2 key n < 2 * n := by
  have := Nat.and_le_right (n := key ^^^ (key >>> 3)) (m := n - 1)
  unfold hash2; omega

theorem hash1_id {key k : Nat} (h : key < 2 ^ k) : hash1 key (2 ^ k) = key := by
  unfold hash1
  rw [Nat.and_two_pow_sub_one_eq_mod, Nat.mod_eq_of_lt h]

/-- The table `t` holds the chains `m`. -/
structure Rep (n : Nat) (t : Nat → Option Chain) (m : List Chain) : Prop where
  nodup : (m.map (·.key)).Nodup
  holds : ∀ c ∈ m, t (hash1 c.key n) = some c ∨ t (hash2 c.key n) = some c
  only : ∀ s c, t s = some c → c ∈ m ∧ (s = hash1 c.key n ∨ s = hash2 c.key n)
  inj : ∀ s s' c, t s = some c → t s' = some c → s = s'

theorem eq_of_key {m : List Chain} (h : (m.map (·.key)).Nodup) {c d : Chain} (hc : c ∈ m) (hd : d ∈ m) (e : c.key = d.key) : c = d := by
  induction m with
  | nil => simp at hc
  | cons x m ih =>
    rw [List.map_cons, List.nodup_cons] at h
    rcases List.mem_cons.1 hc with h1 | h1 <;> rcases List.mem_cons.1 hd with h2 | h2
    · rw [h1, h2]
    · subst h1; exact absurd (e ▸ List.mem_map_of_mem h2) h.1
    · subst h2; exact absurd (e ▸ List.mem_map_of_mem h1) h.1
    · exact ih h.2 h1 h2

theorem Rep.perm {n : Nat} {t} {m m' : List Chain} (h : Rep n t m) (p : m.Perm m') : Rep n t m' :=
  ⟨(p.map _).nodup_iff.1 h.nodup, fun c hc => h.holds c (p.mem_iff.2 hc), fun s c e => ⟨p.mem_iff.1 (h.only s c e).1, (h.only s c e).2⟩, h.inj⟩

theorem Rep.empty (n : Nat) : Rep n (fun _ => none) [] := ⟨by simp, by simp, by simp, by simp⟩

/-- A chain is put into a free slot of it. -/
theorem Rep.put_free {n : Nat} {t} {m : List Chain} (h : Rep n t m) {e : Chain} (he : e.key ∉ m.map (·.key)) {s : Nat}
    (hs : s = hash1 e.key n ∨ s = hash2 e.key n) (hf : t s = none) : Rep n (put t s e) (e :: m) := by
  have hne : ∀ x c, t x = some c → x ≠ s := by rintro x c hx rfl; rw [hf] at hx; cases hx
  refine ⟨by rw [List.map_cons]; exact List.nodup_cons.2 ⟨he, h.nodup⟩, ?_, ?_, ?_⟩
  · intro c hc
    rcases List.mem_cons.1 hc with rfl | hc
    · rcases hs with rfl | rfl <;> simp [put]
    · rcases h.holds c hc with x | x
      · left; simp [put, hne _ _ x, x]
      · right; simp [put, hne _ _ x, x]
  · intro x c hx
    by_cases hxs : x = s
    · simp only [put, if_pos hxs, Option.some.injEq] at hx
      subst hx; subst hxs
      exact ⟨by simp, hs⟩
    · simp only [put, if_neg hxs] at hx
      exact ⟨List.mem_cons_of_mem _ (h.only x c hx).1, (h.only x c hx).2⟩
  · intro x x' c hx hx'
    by_cases hxs : x = s <;> by_cases hxs' : x' = s
    · rw [hxs, hxs']
    · simp only [put, if_pos hxs, if_neg hxs', Option.some.injEq] at hx hx'
      subst hx
      exact absurd (List.mem_map_of_mem (h.only _ _ hx').1) he
    · simp only [put, if_neg hxs, if_pos hxs', Option.some.injEq] at hx hx'
      subst hx'
      exact absurd (List.mem_map_of_mem (h.only _ _ hx).1) he
    · simp only [put, if_neg hxs, if_neg hxs'] at hx hx'
      exact h.inj _ _ _ hx hx'

/-- A chain takes the slot of another one. -/
theorem Rep.swap {n : Nat} {t} {m : List Chain} {e' : Chain} (h : Rep n t (e' :: m)) {e : Chain} (he : e.key ∉ (e' :: m).map (·.key)) {s : Nat}
    (hs : s = hash1 e.key n ∨ s = hash2 e.key n) (hf : t s = some e') : Rep n (put t s e) (e :: m) := by
  rw [List.map_cons, List.mem_cons, not_or] at he
  have hnd := h.nodup
  rw [List.map_cons, List.nodup_cons] at hnd
  have hne : ∀ x c, c ∈ m → t x = some c → x ≠ s := by
    rintro x c hc hx rfl
    rw [hf] at hx
    cases hx
    exact hnd.1 (List.mem_map_of_mem hc)
  refine ⟨by rw [List.map_cons]; exact List.nodup_cons.2 ⟨he.2, hnd.2⟩, ?_, ?_, ?_⟩
  · intro c hc
    rcases List.mem_cons.1 hc with rfl | hc
    · rcases hs with rfl | rfl <;> simp [put]
    · rcases h.holds c (List.mem_cons_of_mem _ hc) with x | x
      · left; simp [put, hne _ _ hc x, x]
      · right; simp [put, hne _ _ hc x, x]
  · intro x c hx
    by_cases hxs : x = s
    · simp only [put, if_pos hxs, Option.some.injEq] at hx
      subst hx; subst hxs
      exact ⟨by simp, hs⟩
    · simp only [put, if_neg hxs] at hx
      refine ⟨?_, (h.only x c hx).2⟩
      rcases List.mem_cons.1 (h.only x c hx).1 with rfl | hc
      · exact absurd (h.inj _ _ _ hx hf) hxs
      · exact List.mem_cons_of_mem _ hc
  · intro x x' c hx hx'
    by_cases hxs : x = s <;> by_cases hxs' : x' = s
    · rw [hxs, hxs']
    · simp only [put, if_pos hxs, if_neg hxs', Option.some.injEq] at hx hx'
      subst hx
      rcases List.mem_cons.1 (h.only _ _ hx').1 with rfl | hc
      · exact absurd rfl he.1
      · exact absurd (List.mem_map_of_mem hc) he.2
    · simp only [put, if_neg hxs, if_pos hxs', Option.some.injEq] at hx hx'
      subst hx'
      rcases List.mem_cons.1 (h.only _ _ hx).1 with rfl | hc
      · exact absurd rfl he.1
      · exact absurd (List.mem_map_of_mem hc) he.2
    · simp only [put, if_neg hxs, if_neg hxs'] at hx hx'
      exact h.inj _ _ _ hx hx'

/-- The loop of `insert`: all chains are in the table, but perhaps one. -/
theorem place_spec {n : Nat} (k : Nat) (first : Bool) (e : Chain) (t) (m : List Chain) (h : Rep n t m) (he : e.key ∉ m.map (·.key)) :
    (∃ t', place n k first e t = (none, t') ∧ Rep n t' (e :: m)) ∨
    ∃ e' t' m', place n k first e t = (some e', t') ∧ Rep n t' m' ∧ e'.key ∉ m'.map (·.key) ∧ (e' :: m').Perm (e :: m) := by
  induction k generalizing first e t m with
  | zero => exact Or.inr ⟨e, t, m, rfl, h, he, List.Perm.refl _⟩
  | succ k ih =>
    simp only [place]
    generalize hs : (if first = true then hash1 e.key n else hash2 e.key n) = s
    have hs' : s = hash1 e.key n ∨ s = hash2 e.key n := by
      rw [← hs]; by_cases hf : first = true
      · left; simp [hf]
      · right; simp [hf]
    match hts : t s with
    | none => exact Or.inl ⟨_, rfl, h.put_free he hs' hts⟩
    | some e1 =>
      have hm := (h.only s e1 hts).1
      obtain ⟨a, b, rfl⟩ := List.append_of_mem hm
      have hp : (a ++ e1 :: b).Perm (e1 :: (a ++ b)) := List.perm_middle
      have h1 := h.perm hp
      have he1 : e.key ∉ (e1 :: (a ++ b)).map (·.key) := fun x => he ((hp.map _).mem_iff.2 x)
      have h2 := h1.swap he1 hs' hts
      have hnd := h1.nodup
      rw [List.map_cons, List.nodup_cons] at hnd
      have hne : e1.key ∉ (e :: (a ++ b)).map (·.key) := by
        rw [List.map_cons, List.mem_cons, not_or]
        refine ⟨fun x => he1 (by rw [List.map_cons, ← x]; simp), hnd.1⟩
      have hperm : (e1 :: e :: (a ++ b)).Perm (e :: (a ++ e1 :: b)) :=
        (List.Perm.swap _ _ _).trans (List.Perm.cons _ hp.symm)
      rcases ih (!first) e1 (put t s e) _ h2 hne with ⟨t', x, y⟩ | ⟨e2, t', m', x, y, z, w⟩
      · exact Or.inl ⟨t', x, y.perm hperm⟩
      · exact Or.inr ⟨e2, t', m', x, y, z, w.trans hperm⟩

/-- In a table larger than all keys there is always a place. -/
theorem place_large {k : Nat} (e : Chain) (t) (m : List Chain) (h : Rep (2 ^ k) t m) (he : e.key ∉ m.map (·.key)) (hk : e.key < 2 ^ k)
    (hm : ∀ c ∈ m, c.key < 2 ^ k) : ∃ t', place (2 ^ k) (2 ^ k) true e t = (none, t') ∧ Rep (2 ^ k) t' (e :: m) := by
  have hpos : 0 < 2 ^ k := Nat.two_pow_pos k
  have hfree : t (hash1 e.key (2 ^ k)) = none := by
    rw [hash1_id hk]
    match ht : t e.key with
    | none => rfl
    | some c =>
      obtain ⟨a, b⟩ := h.only _ _ ht
      rcases b with b | b
      · rw [hash1_id (hm c a)] at b
        exact absurd (by rw [b]; exact List.mem_map_of_mem a) he
      · have := (hash2_range (key := c.key) hpos).1; omega
  obtain ⟨j, hj⟩ : ∃ j, 2 ^ k = j + 1 := ⟨2 ^ k - 1, by omega⟩
  refine ⟨put t (hash1 e.key (2 ^ k)) e, ?_, h.put_free he (Or.inl rfl) hfree⟩
  have : ∀ n j, t (hash1 e.key n) = none → place n (j + 1) true e t = (none, put t (hash1 e.key n) e) := by
    intro n j hn
    simp [place, hn]
  have := this (2 ^ k) j hfree
  rwa [← hj] at this

theorem mem_entries {n : Nat} {t} {m : List Chain} (h : Rep n t m) (hn : 0 < n) (c : Chain) : c ∈ entries n t ↔ c ∈ m := by
  unfold entries
  rw [List.mem_filterMap]
  constructor
  · rintro ⟨s, _, e⟩; exact (h.only s c e).1
  · intro hc
    rcases h.holds c hc with e | e
    · exact ⟨_, List.mem_range.2 (by have := hash1_lt (key := c.key) hn; omega), e⟩
    · exact ⟨_, List.mem_range.2 (hash2_range hn).2, e⟩

theorem entries_perm {n : Nat} {t} {m : List Chain} (h : Rep n t m) (hn : 0 < n) : (entries n t).Perm m := by
  have hm : m.Nodup := by
    have := h.nodup
    exact List.Pairwise.of_map _ (fun a b hab e => hab (by rw [e])) this
  refine (List.perm_ext_iff_of_nodup ?_ hm).2 (mem_entries h hn)
  unfold entries
  refine List.Pairwise.filterMap _ ?_ List.nodup_range
  intro s s' hne c hc c' hc' e
  subst e
  exact hne (h.inj _ _ _ hc hc')

/-- `insert` adds a chain, however often the table has to grow. -/
theorem insert_spec (f k : Nat) (t) (m : List Chain) (e : Chain) (h : Rep (2 ^ k) t m) (he : e.key ∉ m.map (·.key))
    (hk : ∀ c ∈ e :: m, c.key < 2 ^ (k + f)) :
    ∃ k' t', k ≤ k' ∧ insert (f + 1) e ⟨2 ^ k, t⟩ = some ⟨2 ^ k', t'⟩ ∧ Rep (2 ^ k') t' (e :: m) := by
  induction f generalizing k t m e with
  | zero =>
    obtain ⟨t', a, b⟩ := place_large e t m h he (hk e (by simp)) (fun c hc => hk c (by simp [hc]))
    refine ⟨k, t', Nat.le_refl _, ?_, b⟩
    rw [insert]; simp only [a]
  | succ f ih =>
    rw [insert]
    rcases place_spec (2 ^ k) true e t m h he with ⟨t', a, b⟩ | ⟨e', t', m', a, b, c, d⟩
    · exact ⟨k, t', Nat.le_refl _, by simp only [a], b⟩
    · simp only [a]
      -- the chains one after the other
      have fold : ∀ (l : List Chain) (k1 : Nat) (t1) (m1 : List Chain), k + 1 ≤ k1 → Rep (2 ^ k1) t1 m1 → (∀ c ∈ l ++ m1, c.key < 2 ^ (k1 + f)) →
          ((l ++ m1).map (·.key)).Nodup →
          ∃ k2 t2, k1 ≤ k2 ∧ l.foldlM (fun T c => insert (f + 1) c T) (⟨2 ^ k1, t1⟩ : Table) = some ⟨2 ^ k2, t2⟩ ∧ Rep (2 ^ k2) t2 (l ++ m1) := by
        intro l
        induction l with
        | nil => intro k1 t1 m1 _ hr _ _; exact ⟨k1, t1, Nat.le_refl _, rfl, hr⟩
        | cons x l ihl =>
          intro k1 t1 m1 hk1 hr hb hnd
          have hp : (x :: (l ++ m1)).Perm (l ++ x :: m1) := List.perm_middle.symm
          have hnd' := hnd
          rw [List.cons_append, List.map_cons, List.nodup_cons] at hnd
          obtain ⟨k2, t2, hk2, e2, r2⟩ := ih k1 t1 m1 x hr (fun hx => hnd.1 (by rw [List.map_append, List.mem_append]; exact Or.inr hx))
            (fun c hc => hb c (by simp only [List.mem_cons, List.mem_append, List.cons_append] at hc ⊢; rcases hc with h | h <;> simp [h]))
          obtain ⟨k3, t3, hk3, e3, r3⟩ := ihl k2 t2 (x :: m1) (by omega) r2 (fun c hc => by
              have := hb c (hp.mem_iff.2 hc)
              exact Nat.lt_of_lt_of_le this (Nat.pow_le_pow_right (by omega) (by omega)))
            ((hp.map _).nodup_iff.1 hnd')
          refine ⟨k3, t3, by omega, ?_, r3.perm hp.symm⟩
          rw [List.foldlM_cons]
          show (insert (f + 1) x ⟨2 ^ k1, t1⟩).bind _ = _
          rw [e2]; exact e3
      have hpe := entries_perm b (Nat.two_pow_pos k)
      have hbnd : ∀ c ∈ e' :: m', c.key < 2 ^ (k + 1 + f) := fun c hc => by
        have := hk c (d.mem_iff.1 hc)
        rwa [show k + 1 + f = k + (f + 1) by omega]
      obtain ⟨k2, t2, hk2, e2, r2⟩ := fold (entries (2 ^ k) t') (k + 1) (fun _ => none) [] (Nat.le_refl _) (Rep.empty _)
        (fun c hc => hbnd c (by rw [List.append_nil] at hc; exact List.mem_cons_of_mem _ (hpe.mem_iff.1 hc)))
        (by rw [List.append_nil]; exact (hpe.map _).nodup_iff.2 b.nodup)
      rw [List.append_nil] at r2
      obtain ⟨k3, t3, hk3, e3, r3⟩ := ih k2 t2 m' e' (r2.perm hpe) c (fun x hx =>
        Nat.lt_of_lt_of_le (hbnd x hx) (Nat.pow_le_pow_right (by omega) (by omega)))
      refine ⟨k3, t3, by omega, ?_, r3.perm d⟩
      rw [show 2 * 2 ^ k = 2 ^ (k + 1) by rw [Nat.pow_succ]; omega, e2]
      exact e3

/-- `find` finds the chain of a key. -/
theorem find_spec {n : Nat} {t} {m : List Chain} (h : Rep n t m) (key : Nat) :
    (∃ s c, find ⟨n, t⟩ key = some (s, c) ∧ c ∈ m ∧ c.key = key ∧ t s = some c ∧ (s = hash1 key n ∨ s = hash2 key n)) ∨
    find ⟨n, t⟩ key = none ∧ key ∉ m.map (·.key) := by
  by_cases hk : key ∈ m.map (·.key)
  · left
    obtain ⟨c, hc, e⟩ := List.mem_map.1 hk
    subst e
    unfold find
    match h1 : t (hash1 c.key n) with
    | some e =>
      simp only [h1]
      by_cases he : e.key = c.key
      · rw [if_pos he]
        exact ⟨_, e, rfl, (h.only _ _ h1).1, he, h1, Or.inl rfl⟩
      · rw [if_neg he, find.second]
        have h2 : t (hash2 c.key n) = some c := by
          rcases h.holds c hc with x | x
          · rw [h1] at x; cases x; exact absurd rfl he
          · exact x
        simp only [h2, if_true]
        exact ⟨_, c, rfl, hc, rfl, h2, Or.inr rfl⟩
    | none =>
      simp only [h1, find.second]
      have h2 : t (hash2 c.key n) = some c := by
        rcases h.holds c hc with x | x
        · rw [h1] at x; cases x
        · exact x
      simp only [h2, if_true]
      exact ⟨_, c, rfl, hc, rfl, h2, Or.inr rfl⟩
  · right
    have no : ∀ s c, t s = some c → c.key ≠ key := fun s c hs e => hk (e ▸ List.mem_map_of_mem (h.only s c hs).1)
    refine ⟨?_, hk⟩
    unfold find
    have sec : find.second ⟨n, t⟩ key = none := by
      unfold find.second
      match h2 : t (hash2 key n) with
      | some e => simp only [h2]; rw [if_neg (no _ _ h2)]
      | none => simp only [h2]
    match h1 : t (hash1 key n) with
    | some e => simp only [h1]; rw [if_neg (no _ _ h1)]; exact sec
    | none => simp only [h1]; exact sec

/-- A chain is replaced by one with the same key. -/
theorem Rep.replace {n : Nat} {t} {m : List Chain} (h : Rep n t m) {s : Nat} {c c' : Chain} (hs : t s = some c) (hk : c'.key = c.key) :
    Rep n (put t s c') (m.map fun x => if x.key = c.key then c' else x) := by
  have hc := (h.only s c hs)
  have hkey : (m.map fun x => if x.key = c.key then c' else x).map (·.key) = m.map (·.key) := by
    rw [List.map_map]
    apply List.map_congr_left
    intro x _
    simp only [Function.comp_apply]
    split
    · rename_i e; rw [hk, e]
    · rfl
  refine ⟨by rw [hkey]; exact h.nodup, ?_, ?_, ?_⟩
  · intro x hx
    obtain ⟨y, hy, rfl⟩ := List.mem_map.1 hx
    by_cases e : y.key = c.key
    · simp only [if_pos e]
      have hyc := eq_of_key h.nodup hy hc.1 e
      subst hyc
      rcases hc.2 with rfl | rfl <;> simp [put, hk]
    · simp only [if_neg e]
      rcases h.holds y hy with x | x
      · left
        rw [put, if_neg, x]
        rintro rfl; rw [hs] at x; cases x; exact e rfl
      · right
        rw [put, if_neg, x]
        rintro rfl; rw [hs] at x; cases x; exact e rfl
  · intro x d hx
    by_cases hxs : x = s
    · simp only [put, if_pos hxs, Option.some.injEq] at hx
      subst hx; subst hxs
      refine ⟨List.mem_map.2 ⟨c, hc.1, by simp⟩, ?_⟩
      rw [hk]; exact hc.2
    · simp only [put, if_neg hxs] at hx
      refine ⟨List.mem_map.2 ⟨d, (h.only x d hx).1, ?_⟩, (h.only x d hx).2⟩
      rw [if_neg]
      intro e
      have := eq_of_key h.nodup (h.only x d hx).1 hc.1 e
      subst this
      exact hxs (h.inj _ _ _ hx hs)
  · intro x x' d hx hx'
    have key : ∀ y, y ≠ s → t y = some c' → False := by
      intro y hy hty
      have := eq_of_key h.nodup (h.only y c' hty).1 hc.1 hk
      subst this
      exact hy (h.inj _ _ _ hty hs)
    by_cases hxs : x = s <;> by_cases hxs' : x' = s
    · rw [hxs, hxs']
    · simp only [put, if_pos hxs, if_neg hxs', Option.some.injEq] at hx hx'
      subst hx
      exact (key _ hxs' hx').elim
    · simp only [put, if_neg hxs, if_pos hxs', Option.some.injEq] at hx hx'
      subst hx'
      exact (key _ hxs hx).elim
    · simp only [put, if_neg hxs, if_neg hxs'] at hx hx'
      exact h.inj _ _ _ hx hx'

/-! ## The contents -/

/-- A sum over rows with their multiplicities. -/
def wsum (l : List (Nat × Tup)) (F : Tup → Nat) : Nat := (l.map fun p => p.1 * F p.2).sum

theorem wsum_cons (p : Nat × Tup) (l : List (Nat × Tup)) (F) : wsum (p :: l) F = p.1 * F p.2 + wsum l F := by simp [wsum]

theorem aggregateIn_sum {cnt : Nat} {tail : Tup} {l l' : List (Nat × Tup)} (h : aggregateIn cnt tail l = some l') (F : Tup → Nat) :
    wsum l' F = wsum l F + cnt * F tail := by
  induction l generalizing l' with
  | nil => cases h
  | cons p l ih =>
    rw [aggregateIn] at h
    by_cases hp : p.2 = tail
    · rw [if_pos hp] at h
      cases h
      rw [wsum_cons, wsum_cons, Nat.add_mul, hp]
      omega
    · rw [if_neg hp] at h
      obtain ⟨l1, h1, rfl⟩ := Option.map_eq_some_iff.1 h
      rw [wsum_cons, wsum_cons, ih h1]
      omega

/-- The rows of the left side with the key `k`, without the key. -/
def tailsOf (ok : Tup → Bool) (left : List Row) (k : Nat) : List (Nat × Tup) :=
  (left.filter fun r => ok r.2 && col r.2 0 == k).map fun r => (r.1, r.2.tail)

/-- The chains `m` hold the rows `left`. -/
structure Content (ok : Tup → Bool) (left : List Row) (m : List Chain) : Prop where
  keys : ∀ k, k ∈ m.map (·.key) ↔ ∃ r ∈ left, ok r.2 = true ∧ col r.2 0 = k
  sums : ∀ c ∈ m, ∀ F, wsum c.entries F = wsum (tailsOf ok left c.key) F

theorem tailsOf_append (ok : Tup → Bool) (left : List Row) (r : Row) (k : Nat) (F : Tup → Nat) :
    wsum (tailsOf ok (left ++ [r]) k) F = wsum (tailsOf ok left k) F + if ok r.2 = true ∧ col r.2 0 = k then r.1 * F r.2.tail else 0 := by
  unfold tailsOf wsum
  rw [List.filter_append, List.map_append, List.map_append, List.sum_append]
  by_cases h : ok r.2 = true ∧ col r.2 0 = k
  · rw [if_pos h, List.filter_cons_of_pos (by simp [h])]; simp
  · rw [if_neg h, List.filter_cons_of_neg (by simpa using h)]; simp

theorem tailsOf_none {ok : Tup → Bool} {left : List Row} {k : Nat} (h : ¬ ∃ r ∈ left, ok r.2 = true ∧ col r.2 0 = k) : tailsOf ok left k = [] := by
  unfold tailsOf
  rw [List.filter_eq_nil_iff.2]
  · rfl
  · intro r hr hx
    exact h ⟨r, hr, by simpa using hx⟩

/-- One row. -/
theorem buildRow_spec {ok : Tup → Bool} {left : List Row} {m : List Chain} {k : Nat} {t} (hk : 10 ≤ k) (hr : Rep (2 ^ k) t m) (hc : Content ok left m) (r : Row)
    (hb : ∀ c ∈ m, c.key < 2 ^ 64) (hb' : col r.2 0 < 2 ^ 64) :
    ∃ k' t' m', 10 ≤ k' ∧ buildRow ok ⟨2 ^ k, t⟩ r = some ⟨2 ^ k', t'⟩ ∧ Rep (2 ^ k') t' m' ∧ Content ok (left ++ [r]) m' ∧ ∀ c ∈ m', c.key < 2 ^ 64 := by
  unfold buildRow
  by_cases ho : ok r.2 = true
  · simp only [ho, Bool.not_true, Bool.false_eq_true, if_false]
    rcases find_spec hr (col r.2 0) with ⟨s, c, e, hm, hkey, hs, hh⟩ | ⟨e, hn⟩
    · rw [e]
      refine ⟨k, _, _, hk, rfl, hr.replace (c' := ⟨c.key, _⟩) hs rfl, ?_, ?_⟩
      · refine ⟨?_, ?_⟩
        · intro k1
          have hkk : ∀ (x : Chain), (m.map fun x => if x.key = c.key then (⟨c.key, (aggregateIn r.1 r.2.tail c.entries).getD ((r.1, r.2.tail) :: c.entries)⟩ : Chain) else x).map (·.key) = m.map (·.key) := by
            intro _
            rw [List.map_map]
            apply List.map_congr_left
            intro x _
            simp only [Function.comp_apply]
            split
            · rename_i e; exact e.symm
            · rfl
          rw [hkk c, hc.keys]
          constructor
          · rintro ⟨x, hx, y⟩; exact ⟨x, by simp [hx], y⟩
          · rintro ⟨x, hx, y⟩
            rcases List.mem_append.1 hx with hx | hx
            · exact ⟨x, hx, y⟩
            · rw [List.mem_singleton.1 hx] at y
              exact (hc.keys k1).1 (by rw [← y.2, ← hkey]; exact List.mem_map_of_mem hm)
        · intro x hx F
          obtain ⟨y, hy, rfl⟩ := List.mem_map.1 hx
          rw [tailsOf_append]
          by_cases hyk : y.key = c.key
          · simp only [if_pos hyk]
            rw [if_pos ⟨ho, hkey.symm⟩, ← hc.sums c hm]
            match ha : aggregateIn r.1 r.2.tail c.entries with
            | some l => rw [Option.getD_some, aggregateIn_sum ha]
            | none => rw [Option.getD_none, wsum_cons]; exact Nat.add_comm _ _
          · simp only [if_neg hyk]
            rw [if_neg (by rintro ⟨_, z⟩; exact hyk (by rw [hkey, z])), ← hc.sums y hy]; omega
      · intro x hx
        obtain ⟨y, hy, rfl⟩ := List.mem_map.1 hx
        split
        · exact hb c hm
        · exact hb y hy
    · rw [e]
      obtain ⟨k', t', h1, h2, h3⟩ := insert_spec 63 k t m ⟨col r.2 0, [(r.1, r.2.tail)]⟩ hr hn (by
        intro c hcm
        have : c.key < 2 ^ 64 := by
          rcases List.mem_cons.1 hcm with rfl | hcm
          · exact hb'
          · exact hb c hcm
        exact Nat.lt_of_lt_of_le this (Nat.pow_le_pow_right (by omega) (by omega)))
      refine ⟨k', t', _, by omega, h2, h3, ⟨?_, ?_⟩, ?_⟩
      · intro k1
        rw [List.map_cons, List.mem_cons, hc.keys]
        constructor
        · rintro (rfl | ⟨x, hx, y⟩)
          · exact ⟨r, by simp, ho, rfl⟩
          · exact ⟨x, by simp [hx], y⟩
        · rintro ⟨x, hx, y⟩
          rcases List.mem_append.1 hx with hx | hx
          · exact Or.inr ⟨x, hx, y⟩
          · rw [List.mem_singleton.1 hx] at y
            exact Or.inl y.2.symm
      · intro x hx F
        rw [tailsOf_append]
        rcases List.mem_cons.1 hx with rfl | hx
        · rw [if_pos ⟨ho, rfl⟩, tailsOf_none (by rw [← hc.keys]; exact hn)]
          simp [wsum]
        · rw [if_neg (by rintro ⟨_, z⟩; exact hn (by rw [z]; exact List.mem_map_of_mem hx)), ← hc.sums x hx]; omega
      · intro x hx
        rcases List.mem_cons.1 hx with rfl | hx
        · exact hb'
        · exact hb x hx
  · simp only [ho, Bool.not_false, if_true]
    refine ⟨k, t, m, hk, rfl, hr, ⟨?_, ?_⟩, hb⟩
    · intro k1
      rw [hc.keys]
      constructor
      · rintro ⟨x, hx, y⟩; exact ⟨x, by simp [hx], y⟩
      · rintro ⟨x, hx, y⟩
        rcases List.mem_append.1 hx with hx | hx
        · exact ⟨x, hx, y⟩
        · rw [List.mem_singleton.1 hx] at y; exact absurd y.1 ho
    · intro c hcm F
      rw [tailsOf_append, if_neg (by simp [ho]), ← hc.sums c hcm]; omega

theorem lookup_spec {ok : Tup → Bool} {left : List Row} {n : Nat} {t} {m : List Chain} (hr : Rep n t m) (hc : Content ok left m) (key : Nat) :
    (∃ c, lookup ⟨n, t⟩ key = some c ∧ c.key = key ∧ ∀ F, wsum c.entries F = wsum (tailsOf ok left key) F) ∨
    lookup ⟨n, t⟩ key = none ∧ ∀ r ∈ left, ok r.2 = true → col r.2 0 ≠ key := by
  rcases find_spec hr key with ⟨s, c, e, hm, rfl, _, _⟩ | ⟨e, hn⟩
  · exact Or.inl ⟨c, by rw [lookup, e]; rfl, rfl, hc.sums c hm⟩
  · refine Or.inr ⟨by rw [lookup, e]; rfl, fun r hr' ho hk => hn ((hc.keys key).2 ⟨r, hr', ho, hk⟩)⟩

/-- The table holds the left side. -/
theorem build_spec (ok : Tup → Bool) (left : List Row) (hb : ∀ r ∈ left, col r.2 0 < 2 ^ 64) :
    ∃ n t m, 0 < n ∧ build ok left = some ⟨n, t⟩ ∧ Rep n t m ∧ Content ok left m := by
  have main : ∀ (l l0 : List Row) (k : Nat) (t) (m : List Chain), 10 ≤ k → Rep (2 ^ k) t m → Content ok l0 m → (∀ c ∈ m, c.key < 2 ^ 64) →
      (∀ r ∈ l, col r.2 0 < 2 ^ 64) →
      ∃ n t' m', 0 < n ∧ l.foldlM (buildRow ok) (⟨2 ^ k, t⟩ : Table) = some ⟨n, t'⟩ ∧ Rep n t' m' ∧ Content ok (l0 ++ l) m' := by
    intro l
    induction l with
    | nil => intro l0 k t m _ hr hc _ _; exact ⟨2 ^ k, t, m, Nat.two_pow_pos k, rfl, hr, by simpa using hc⟩
    | cons r l ih =>
      intro l0 k t m hk hr hc hm hl
      obtain ⟨k', t', m', a, b, c, d, e⟩ := buildRow_spec hk hr hc r hm (hl r (by simp))
      obtain ⟨n, t2, m2, n0, x, y, z⟩ := ih (l0 ++ [r]) k' t' m' a c d e (fun s hs => hl s (by simp [hs]))
      refine ⟨n, t2, m2, n0, ?_, y, by simpa using z⟩
      rw [List.foldlM_cons]
      show (buildRow ok ⟨2 ^ k, t⟩ r).bind _ = _
      rw [b]; exact x
  obtain ⟨n, t, m, n0, a, b, c⟩ := main left [] 10 (fun _ => none) [] (by omega) (Rep.empty _) ⟨by simp, by simp⟩ (by simp) hb
  exact ⟨n, t, m, n0, a, b, by simpa using c⟩

end Trident.Sparql.Hash
