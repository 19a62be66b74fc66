import Verif.Files.Memory
/-! # The memory manager: proofs -/
namespace Trident.Files

def size : Option Blk → Nat
  | some b => b.bytes
  | none => 0

def total (l : List (Option Blk)) : Nat := (l.map size).sum

def free (l : List (Option Blk)) : Nat := l.countP (· = none)

structure MInv (N : Nat) (m : Mm) : Prop where
  len : m.slots.length = N
  bytes : m.bytes = total m.slots
  left : m.left = free m.slots
  start : m.start ≤ N
  end_ : m.end_ ≤ N

theorem getD_of_get {m : Mm} {i : Nat} {b : Blk} (h : m.get i = some b) : i < m.slots.length ∧ m.slots[i]? = some (some b) := by
  unfold Mm.get at h
  cases e : m.slots[i]? with
  | none => rw [e] at h; cases h
  | some o =>
    rw [e] at h
    cases o with
    | none => cases h
    | some b' =>
      cases h
      exact ⟨(List.getElem?_eq_some_iff.1 e).1, rfl⟩

theorem get_none {m : Mm} {i : Nat} (hi : i < m.slots.length) (h : m.get i = none) : m.slots[i]? = some none := by
  unfold Mm.get at h
  rw [List.getElem?_eq_getElem hi] at h ⊢
  cases e : m.slots[i] with
  | none => rfl
  | some b => rw [e] at h; cases h

theorem get_set {m : Mm} {i : Nat} (hi : i < m.slots.length) (v : Option Blk) (j : Nat) :
    ((m.slots.set i v)[j]?).join = if j = i then v else m.get j := by
  unfold Mm.get
  by_cases h : j = i
  · subst h
    rw [if_pos rfl, List.getElem?_set_self hi]
    rfl
  · rw [if_neg h, List.getElem?_set_ne (fun e => h e.symm)]

theorem total_set : ∀ {l : List (Option Blk)} {i : Nat} {o v : Option Blk}, l[i]? = some o → total (l.set i v) + size o = total l + size v
  | [], i, _, _, h => by simp at h
  | x :: l, 0, o, v, h => by
    simp at h
    subst h
    simp [total]
    omega
  | x :: l, i + 1, o, v, h => by
    have := total_set (l := l) (i := i) (v := v) (by simpa using h)
    simp [total] at this ⊢
    omega

theorem free_set : ∀ {l : List (Option Blk)} {i : Nat} {o v : Option Blk}, l[i]? = some o →
    free (l.set i v) + (if o = none then 1 else 0) = free l + (if v = none then 1 else 0)
  | [], i, _, _, h => by simp at h
  | x :: l, 0, o, v, h => by
    simp at h
    subst h
    simp only [free, List.set_cons_zero, List.countP_cons, decide_eq_true_eq]
    omega
  | x :: l, i + 1, o, v, h => by
    have := free_set (l := l) (i := i) (v := v) (by simpa using h)
    simp only [free, List.set_cons_succ, List.countP_cons, decide_eq_true_eq] at this ⊢
    omega

theorem empty_minv (N : Nat) : MInv N (Mm.empty N) := by
  refine ⟨by simp [Mm.empty], ?_, ?_, Nat.zero_le _, Nat.zero_le _⟩
  · simp [Mm.empty, total, size]
  · simp [Mm.empty, free, List.countP_replicate]

theorem total_le {l : List (Option Blk)} {i : Nat} {b : Blk} (h : l[i]? = some (some b)) : b.bytes ≤ total l := by
  have := total_set (v := none) h
  simp [size] at this
  omega

/-! ## Removing -/

theorem drop_spec {N : Nat} {m : Mm} (h : MInv N m) (i : Nat) :
    MInv N (m.drop i) ∧ (∀ j, (m.drop i).get j = if j = i then none else m.get j) ∧ (m.drop i).start = m.start ∧ (m.drop i).end_ = m.end_ := by
  unfold Mm.drop
  cases e : m.get i with
  | none =>
    refine ⟨h, fun j => ?_, rfl, rfl⟩
    by_cases hj : j = i
    · rw [if_pos hj, hj]; exact e
    · rw [if_neg hj]
  | some b =>
    obtain ⟨hi, hb⟩ := getD_of_get e
    have ht := total_set (v := none) hb
    have hf := free_set (v := none) hb
    simp only [size] at ht
    simp at hf
    refine ⟨⟨by simp [h.len], ?_, ?_, h.start, h.end_⟩, fun j => get_set hi none j, rfl, rfl⟩
    · simp only [h.bytes]; omega
    · simp only [h.left]; omega

theorem removeBlock_eq (m : Mm) (i : Nat) : m.removeBlock i = (m.get i).map fun _ => m.drop i := by
  unfold Mm.removeBlock Mm.drop
  cases m.get i <;> rfl

theorem scanFree_spec {m : Mm} {N : Nat} : ∀ {fuel s i : Nat}, scanFree m N fuel s = some i → ∃ b, m.get i = some b ∧ ¬ b.lock > 0
  | 0, _, _, h => by cases h
  | fuel + 1, s, i, h => by
    unfold scanFree at h
    cases e : m.get s with
    | none => rw [e] at h; exact scanFree_spec h
    | some b =>
      rw [e] at h
      by_cases hl : b.lock > 0
      · simp only [hl, if_true] at h
        exact scanFree_spec h
      · simp only [hl, if_false] at h
        cases h
        exact ⟨b, e, hl⟩

/-- What the removal of blocks changes: the given slots, none of which was locked, become empty. -/
structure Cut (N : Nat) (m m' : Mm) (l : List Nat) : Prop where
  inv : MInv N m'
  get : ∀ j, m'.get j = if j ∈ l then none else m.get j
  was : ∀ i ∈ l, ∃ b, m.get i = some b ∧ ¬ b.lock > 0
  end_ : m'.end_ = m.end_

theorem Cut.refl {N : Nat} {m : Mm} (h : MInv N m) : Cut N m m [] := ⟨h, by simp, by simp, rfl⟩

theorem Cut.trans {N : Nat} {m m' m'' : Mm} {l l' : List Nat} (h : Cut N m m' l) (h' : Cut N m' m'' l') : Cut N m m'' (l ++ l') := by
  refine ⟨h'.inv, fun j => ?_, fun i hi => ?_, by rw [h'.end_, h.end_]⟩
  · rw [h'.get, h.get]
    by_cases h1 : j ∈ l'
    · simp [h1]
    · by_cases h2 : j ∈ l <;> simp [h1, h2]
  · rcases List.mem_append.1 hi with hi | hi
    · exact h.was i hi
    · obtain ⟨b, hb, hl⟩ := h'.was i hi
      rw [h.get] at hb
      by_cases h2 : i ∈ l
      · simp [h2] at hb
      · rw [if_neg h2] at hb
        exact ⟨b, hb, hl⟩

theorem removeOne_spec {N : Nat} {m m' : Mm} {l : List Nat} (h : MInv N m) (hr : m.removeOne N = some (m', l)) : Cut N m m' l := by
  unfold Mm.removeOne at hr
  by_cases hl : m.left < N
  · rw [if_pos hl] at hr
    simp only [Option.bind_eq_bind] at hr
    cases e : scanFree m N N (if m.start = N then 0 else m.start) with
    | none => rw [e] at hr; cases hr
    | some i =>
      obtain ⟨b, hb, hlk⟩ := scanFree_spec e
      rw [e] at hr
      simp only [Option.bind_some, removeBlock_eq, hb, Option.map_some] at hr
      cases hr
      obtain ⟨d1, d2, d3, d4⟩ := drop_spec h i
      have hi := (getD_of_get hb).1
      rw [h.len] at hi
      refine ⟨⟨d1.len, d1.bytes, d1.left, hi, d1.end_⟩, fun j => ?_, fun j hj => ?_, d4⟩
      · have := d2 j
        by_cases hj : j = i
        · simp [Mm.get] at this ⊢; simpa [hj] using this
        · simp [Mm.get, hj] at this ⊢; exact this
      · rw [List.mem_singleton.1 hj]
        exact ⟨b, hb, hlk⟩
  · rw [if_neg hl] at hr
    cases hr
    exact Cut.refl h

theorem evict_spec {N : Nat} {max : Int} : ∀ {fuel : Nat} {m m' : Mm} {l : List Nat}, MInv N m → m.evict N max fuel = some (m', l) →
    Cut N m m' l ∧ m'.bytes < max ∧ m'.left ≠ 0
  | 0, _, _, _, _, h => by cases h
  | fuel + 1, m, m', l, hi, h => by
    unfold Mm.evict at h
    by_cases hc : m.bytes ≥ max ∨ m.left = 0
    · rw [if_pos hc] at h
      simp only [Option.bind_eq_bind] at h
      cases e : m.removeOne N with
      | none => rw [e] at h; cases h
      | some r =>
        obtain ⟨m1, l1⟩ := r
        rw [e] at h
        simp only [Option.bind_some] at h
        cases e2 : Mm.evict N max fuel m1 with
        | none => rw [e2] at h; cases h
        | some r2 =>
          obtain ⟨m2, l2⟩ := r2
          rw [e2] at h
          cases h
          have c1 := removeOne_spec hi e
          obtain ⟨c2, h2⟩ := evict_spec c1.inv e2
          exact ⟨c1.trans c2, h2⟩
    · rw [if_neg hc] at h
      cases h
      exact ⟨Cut.refl hi, by omega, by omega⟩

theorem scanEmpty_spec {m : Mm} {N : Nat} (hN : 0 < N) : ∀ {fuel e i : Nat}, e < N → scanEmpty m N fuel e = some i → m.get i = none ∧ i < N
  | 0, _, _, _, h => by cases h
  | fuel + 1, e, i, he, h => by
    unfold scanEmpty at h
    by_cases hc : m.get e = none
    · rw [if_pos hc] at h
      cases h
      exact ⟨hc, he⟩
    · rw [if_neg hc] at h
      exact scanEmpty_spec hN (Nat.mod_lt _ hN) h

/-- `add` empties some slots, none of them locked, and fills an empty one. -/
theorem add_spec {N : Nat} {max : Int} {m m' : Mm} {b o e : Nat} {l : List Nat} (hN : 0 < N) (h : MInv N m) (ha : m.add N max b o = some (m', e, l)) :
    MInv N m' ∧ (∀ i ∈ l, ∃ x, m.get i = some x ∧ ¬ x.lock > 0) ∧ (m.get e = none ∨ e ∈ l) ∧
    (∀ j, m'.get j = if j = e then some ⟨o, b, 0⟩ else if j ∈ l then none else m.get j) ∧ (m'.bytes ≤ max ∨ m'.bytes - b < max) ∧
    (m.bytes + b ≤ max → l = []) := by
  unfold Mm.add at ha
  simp only [Option.bind_eq_bind] at ha
  have key : ∀ m1, Cut N m m1 l → (m1.bytes + b ≤ max ∨ m1.bytes < max) → ∀ e', scanEmpty m1 N N (if m1.end_ = N then 0 else m1.end_) = some e' →
      e = e' → m' = { m1 with slots := m1.slots.set e (some ⟨o, b, 0⟩), bytes := m1.bytes + b, left := m1.left - 1, end_ := e + 1 } →
      MInv N m' ∧ (∀ i ∈ l, ∃ x, m.get i = some x ∧ ¬ x.lock > 0) ∧ (m.get e = none ∨ e ∈ l) ∧
    (∀ j, m'.get j = if j = e then some ⟨o, b, 0⟩ else if j ∈ l then none else m.get j) ∧ (m'.bytes ≤ max ∨ m'.bytes - b < max) := by
    rintro m1 c1 hb e' hs rfl rfl
    obtain ⟨g, hlt⟩ := scanEmpty_spec hN (by have := c1.inv.end_; split <;> omega) hs
    have hi : e < m1.slots.length := by rw [c1.inv.len]; exact hlt
    have hn := get_none hi g
    have ht := total_set (v := some ⟨o, b, 0⟩) hn
    have hf := free_set (v := some ⟨o, b, 0⟩) hn
    simp only [size] at ht
    simp at hf
    refine ⟨⟨by simp [c1.inv.len], ?_, ?_, c1.inv.start, by show e + 1 ≤ N; omega⟩, c1.was, ?_, ?_, ?_⟩
    · simp only [c1.inv.bytes]; omega
    · simp only [c1.inv.left]; omega
    · rw [c1.get] at g
      by_cases he : e ∈ l
      · exact .inr he
      · rw [if_neg he] at g; exact .inl g
    · intro j
      have := get_set hi (some ⟨o, b, 0⟩) j
      simp only [Mm.get] at this ⊢
      rw [this]
      by_cases hj : j = e
      · rw [if_pos hj, if_pos hj]
      · rw [if_neg hj, if_neg hj]
        have := c1.get j
        simp only [Mm.get] at this
        exact this
    · simp only; omega
  by_cases hc : m.bytes + b > max
  · rw [if_pos hc] at ha
    cases he : m.evict N max (N + 2) with
    | none => rw [he] at ha; cases ha
    | some r =>
      obtain ⟨m1, l1⟩ := r
      rw [he] at ha
      simp only [Option.bind_some] at ha
      cases hs : scanEmpty m1 N N (if m1.end_ = N then 0 else m1.end_) with
      | none => rw [hs] at ha; cases ha
      | some e' =>
        rw [hs] at ha
        simp only [Option.bind_some] at ha
        injection ha with ha
        injection ha with h1 h2
        injection h2 with h2 h3
        subst h2 h3
        obtain ⟨c1, c2, -⟩ := evict_spec h he
        obtain ⟨r1, r2, r3, r4, r5⟩ := key m1 c1 (.inr c2) e' hs rfl h1.symm
        exact ⟨r1, r2, r3, r4, r5, by omega⟩
  · rw [if_neg hc] at ha
    simp only [Option.bind_some] at ha
    cases hs : scanEmpty m N N (if m.end_ = N then 0 else m.end_) with
    | none => rw [hs] at ha; cases ha
    | some e' =>
      rw [hs] at ha
      simp only [Option.bind_some] at ha
      injection ha with ha
      injection ha with h1 h2
      injection h2 with h2 h3
      subst h2 h3
      obtain ⟨r1, r2, r3, r4, r5⟩ := key m (Cut.refl h) (.inl (by omega)) e' hs rfl h1.symm
      exact ⟨r1, r2, r3, r4, r5, by simp⟩

theorem update_spec {N : Nat} {m m' : Mm} {i b : Nat} (h : MInv N m) (hu : m.update i b = some m') :
    MInv N m' ∧ ∃ x, m.get i = some x ∧ ∀ j, m'.get j = if j = i then some { x with bytes := b } else m.get j := by
  unfold Mm.update at hu
  cases e : m.get i with
  | none => rw [e] at hu; cases hu
  | some x =>
    rw [e] at hu
    cases hu
    obtain ⟨hi, hb⟩ := getD_of_get e
    have ht := total_set (v := some { x with bytes := b }) hb
    have hf := free_set (v := some { x with bytes := b }) hb
    simp only [size] at ht
    simp at hf
    refine ⟨⟨by simp [h.len], ?_, ?_, h.start, h.end_⟩, x, rfl, fun j => get_set hi _ j⟩
    · simp only [h.bytes]; omega
    · simp only [h.left]; omega

theorem relock_spec {N : Nat} {m m' : Mm} {i : Nat} {d : Int} (h : MInv N m) (hu : m.relock i d = some m') :
    MInv N m' ∧ ∃ x, m.get i = some x ∧ ∀ j, m'.get j = if j = i then some { x with lock := x.lock + d } else m.get j := by
  unfold Mm.relock at hu
  cases e : m.get i with
  | none => rw [e] at hu; cases hu
  | some x =>
    rw [e] at hu
    cases hu
    obtain ⟨hi, hb⟩ := getD_of_get e
    have ht := total_set (v := some { x with lock := x.lock + d }) hb
    have hf := free_set (v := some { x with lock := x.lock + d }) hb
    simp only [size] at ht
    simp at hf
    refine ⟨⟨by simp [h.len], ?_, ?_, h.start, h.end_⟩, x, rfl, fun j => get_set hi _ j⟩
    · simp only [h.bytes]; omega
    · simp only [h.left]; omega

theorem run_minv {N : Nat} {max : Int} (hN : 0 < N) {m m' : Mm} {o : MOp} (h : MInv N m) (hr : m.run N max o = some m') : MInv N m' := by
  cases o with
  | add b o =>
    simp only [Mm.run] at hr
    cases e : m.add N max b o with
    | none => rw [e] at hr; cases hr
    | some r =>
      obtain ⟨m1, e1, l1⟩ := r
      rw [e] at hr
      cases hr
      exact (add_spec hN h e).1
  | update i b => exact (update_spec h hr).1
  | remove i =>
    simp only [Mm.run, removeBlock_eq] at hr
    cases e : m.get i with
    | none => rw [e] at hr; cases hr
    | some b => rw [e] at hr; cases hr; exact (drop_spec h i).1
  | drop i => cases hr; exact (drop_spec h i).1
  | lock i => exact (relock_spec h hr).1
  | unlock i => exact (relock_spec h hr).1

theorem runs_minv {N : Nat} {max : Int} (hN : 0 < N) : ∀ {ops : List MOp} {m m' : Mm}, MInv N m → m.runs N max ops = some m' → MInv N m'
  | [], _, _, h, hr => by cases hr; exact h
  | o :: ops, m, m', h, hr => by
    simp only [Mm.runs] at hr
    cases e : m.run N max o with
    | none => rw [e] at hr; cases hr
    | some m1 =>
      rw [e] at hr
      exact runs_minv hN (run_minv hN h e) hr

/-! ## Termination -/

theorem scanFree_found {m : Mm} {N i : Nat} (hi : i < N) {b : Blk} (hb : m.get i = some b) (hl : ¬ b.lock > 0) : ∀ (fuel s : Nat), s < N →
    (if s ≤ i then i - s else N - s + i) < fuel → ∃ j, scanFree m N fuel s = some j
  | 0, _, _, hf => by omega
  | fuel + 1, s, hs, hf => by
    unfold scanFree
    have rec_ : s ≠ i → ∃ j, scanFree m N fuel (if s + 1 = N then 0 else s + 1) = some j := by
      intro hne
      apply scanFree_found hi hb hl
      · split <;> omega
      · by_cases h1 : s + 1 = N
        · rw [if_pos h1, if_pos (by omega)]
          by_cases h2 : s ≤ i
          · omega
          · rw [if_neg h2] at hf; omega
        · rw [if_neg h1]
          by_cases h2 : s ≤ i
          · rw [if_pos h2] at hf
            rw [if_pos (by omega)]; omega
          · rw [if_neg h2] at hf
            rw [if_neg (by omega)]; omega
    cases e : m.get s with
    | none => exact rec_ (by rintro rfl; rw [hb] at e; cases e)
    | some b' =>
      by_cases h' : b'.lock > 0
      · simp only [h', if_true]
        exact rec_ (by rintro rfl; rw [hb] at e; cases e; exact hl h')
      · simp only [h', if_false]
        exact ⟨s, rfl⟩

theorem scanEmpty_found {m : Mm} {N i : Nat} (hN : 0 < N) (hi : i < N) (hb : m.get i = none) : ∀ (fuel s : Nat), s < N →
    (if s ≤ i then i - s else N - s + i) < fuel → ∃ j, scanEmpty m N fuel s = some j
  | 0, _, _, hf => by omega
  | fuel + 1, s, hs, hf => by
    unfold scanEmpty
    by_cases e : m.get s = none
    · rw [if_pos e]; exact ⟨s, rfl⟩
    · rw [if_neg e]
      have hne : s ≠ i := by rintro rfl; exact e hb
      apply scanEmpty_found hN hi hb _ _ (Nat.mod_lt _ hN)
      by_cases h1 : s + 1 = N
      · rw [h1, Nat.mod_self, if_pos (by omega)]
        by_cases h2 : s ≤ i
        · omega
        · rw [if_neg h2] at hf; omega
      · rw [Nat.mod_eq_of_lt (by omega)]
        by_cases h2 : s ≤ i
        · rw [if_pos h2] at hf
          rw [if_pos (by omega)]; omega
        · rw [if_neg h2] at hf
          rw [if_neg (by omega)]; omega

/-- The bytes of the locked blocks. -/
def lockedBytes (l : List (Option Blk)) : Nat := total (l.filter fun o => o.elim false fun b => decide (b.lock > 0))

theorem all_locked_total : ∀ {l : List (Option Blk)}, (∀ b, some b ∈ l → b.lock > 0) → total l = lockedBytes l
  | [], _ => rfl
  | o :: l, h => by
    have ih := all_locked_total (l := l) (fun b hb => h b (by simp [hb]))
    unfold lockedBytes at ih ⊢
    cases o with
    | none => simp [total, size] at ih ⊢; exact ih
    | some b =>
      have := h b (by simp)
      simp [total, size, this] at ih ⊢
      exact ih

theorem lockedBytes_set_none : ∀ {l : List (Option Blk)} {i : Nat} {b : Blk}, l[i]? = some (some b) → ¬ b.lock > 0 → lockedBytes (l.set i none) = lockedBytes l
  | [], i, _, h, _ => by simp at h
  | x :: l, 0, b, h, hl => by
    simp at h
    subst h
    simp [lockedBytes, hl]
  | x :: l, i + 1, b, h, hl => by
    have := lockedBytes_set_none (l := l) (i := i) (by simpa using h) hl
    unfold lockedBytes at this ⊢
    simp only [List.set_cons_succ, List.filter_cons]
    split
    · simp [total] at this ⊢; exact this
    · exact this

/-- If the locked blocks alone are below the limit and not all slots are locked, room is made. -/
theorem evict_returns {N : Nat} {max : Int} (hN : 0 < N) : ∀ {fuel : Nat} {m : Mm}, MInv N m → (lockedBytes m.slots : Int) < max →
    (0 < m.left ∨ ∃ i b, m.get i = some b ∧ ¬ b.lock > 0) → N - m.left + 1 ≤ fuel → ∃ r, m.evict N max fuel = some r
  | 0, _, _, _, _, hf => by omega
  | fuel + 1, m, h, hl, hr, hf => by
    unfold Mm.evict
    by_cases hc : m.bytes ≥ max ∨ m.left = 0
    · rw [if_pos hc]
      -- there is a block that is not locked
      have hun : ∃ i b, m.get i = some b ∧ ¬ b.lock > 0 := by
        rcases hc with hc | hc
        · apply Classical.byContradiction
          intro hn
          have : total m.slots = lockedBytes m.slots := all_locked_total (fun b hb => by
            apply Classical.byContradiction
            intro hlk
            obtain ⟨i, hi, e⟩ := List.getElem_of_mem hb
            refine hn ⟨i, b, ?_, hlk⟩
            unfold Mm.get
            rw [List.getElem?_eq_getElem hi, e]
            rfl)
          have := h.bytes
          omega
        · rcases hr with hr | hr
          · omega
          · exact hr
      obtain ⟨i, b, hb, hlk⟩ := hun
      have hi := (getD_of_get hb).1
      rw [h.len] at hi
      have hleft : m.left < N := by
        have hff := free_set (v := none) (getD_of_get hb).2
        simp at hff
        have : free (m.slots.set i none) ≤ N := by
          have h0 := List.countP_le_length (p := fun o : Option Blk => decide (o = none)) (l := m.slots.set i none)
          rw [List.length_set, h.len] at h0
          exact h0
        rw [h.left]; omega
      have hs := h.start
      obtain ⟨j, hj⟩ := scanFree_found hi hb hlk N (if m.start = N then 0 else m.start) (by split <;> omega) (by split <;> split <;> omega)
      obtain ⟨bj, hbj, hlj⟩ := scanFree_spec hj
      have hro : m.removeOne N = some ({ m.drop j with start := j + 1 }, [j]) := by
        unfold Mm.removeOne
        rw [if_pos hleft]
        simp only [Option.bind_eq_bind, hj, Option.bind_some, removeBlock_eq, hbj, Option.map_some]
      have cut := removeOne_spec h hro
      have hdrop : (m.drop j).slots = m.slots.set j none ∧ (m.drop j).left = m.left + 1 := by
        unfold Mm.drop
        rw [hbj]
        exact ⟨rfl, rfl⟩
      obtain ⟨r, hr2⟩ := evict_returns hN (fuel := fuel) (m := { m.drop j with start := j + 1 }) cut.inv
        (by
          show (lockedBytes (m.drop j).slots : Int) < max
          rw [hdrop.1, lockedBytes_set_none (getD_of_get hbj).2 hlj]; exact hl)
        (by left; show 0 < (m.drop j).left; rw [hdrop.2]; omega)
        (by show N - (m.drop j).left + 1 ≤ fuel; rw [hdrop.2]; omega)
      obtain ⟨m2, l2⟩ := r
      rw [hro]
      simp only [Option.bind_eq_bind, Option.bind_some, hr2]
      exact ⟨_, rfl⟩
    · rw [if_neg hc]
      exact ⟨_, rfl⟩

theorem free_pos {l : List (Option Blk)} (h : 0 < free l) : ∃ i, i < l.length ∧ l[i]? = some none := by
  obtain ⟨a, ha, hd⟩ := List.countP_pos_iff.1 h
  obtain ⟨i, hi, rfl⟩ := List.getElem_of_mem ha
  refine ⟨i, hi, ?_⟩
  rw [List.getElem?_eq_getElem hi]
  simpa using hd

theorem add_returns {N : Nat} {max : Int} {m : Mm} {b : Nat} (o : Nat) (hN : 0 < N) (h : MInv N m) (hl : (lockedBytes m.slots : Int) < max)
    (hr : 0 < m.left ∨ (m.bytes + b > max ∧ ∃ i x, m.get i = some x ∧ ¬ x.lock > 0)) : ∃ r, m.add N max b o = some r := by
  unfold Mm.add
  have slot : ∀ m1, MInv N m1 → 0 < m1.left → ∃ e, scanEmpty m1 N N (if m1.end_ = N then 0 else m1.end_) = some e := by
    intro m1 h1 hl1
    rw [h1.left] at hl1
    obtain ⟨i, hi, hn⟩ := free_pos hl1
    rw [h1.len] at hi
    have hg : m1.get i = none := by unfold Mm.get; rw [hn]; rfl
    have he := h1.end_
    exact scanEmpty_found hN hi hg N _ (by split <;> omega) (by split <;> split <;> omega)
  simp only [Option.bind_eq_bind]
  by_cases hc : m.bytes + b > max
  · rw [if_pos hc]
    obtain ⟨⟨m1, l1⟩, he⟩ := evict_returns hN (fuel := N + 2) h hl (by
      rcases hr with hr | hr
      · exact .inl hr
      · exact .inr hr.2) (by omega)
    obtain ⟨c1, -, c3⟩ := evict_spec h he
    obtain ⟨e, he2⟩ := slot m1 c1.inv (by omega)
    rw [he]
    simp only [Option.bind_some, he2]
    exact ⟨_, rfl⟩
  · rw [if_neg hc]
    obtain ⟨e, he2⟩ := slot m h (by
      rcases hr with hr | hr
      · exact hr
      · omega)
    simp only [Option.bind_some, he2]
    exact ⟨_, rfl⟩

end Trident.Files
