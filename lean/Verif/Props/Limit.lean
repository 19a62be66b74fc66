import Verif.Sparql.Limit
/-!
# C73: LIMIT and OFFSET

A query with `OFFSET o LIMIT n` returns the first `n` solutions after the first `o`.
-/
namespace Trident.Sparql.Spec

/-- The solutions that remain with `OFFSET o LIMIT n`. -/
def slice {α : Type} (o n : Nat) (l : List α) : List α := (l.drop o).take n

/-- Without a LIMIT clause. -/
def sliceOpt {α : Type} (o : Nat) (n : Option Nat) (l : List α) : List α :=
  match n with
  | none => l.drop o
  | some n => slice o n l

end Trident.Sparql.Spec

namespace Trident.Sparql.Limit

/-- The solutions of an input: with duplicates or without. -/
def sols (dup : Bool) (l : List Row) : List Tup := if dup then expand l else l.map (·.2)

/-- What the operator can still return without a limit. -/
def rest (dup : Bool) (s : DL) : List Tup := (if dup then List.replicate (s.entryCount - s.currentCount) s.cur else []) ++ sols dup s.input

theorem sols_cons (dup : Bool) (r : Row) (l : List Row) (h : 0 < r.1) :
    sols dup (r :: l) = r.2 :: ((if dup then List.replicate (r.1 - 1) r.2 else []) ++ sols dup l) := by
  unfold sols
  cases dup
  · simp
  · simp only [if_true, expand, List.flatMap_cons]
    obtain ⟨n, hn⟩ : ∃ n, r.1 = n + 1 := ⟨r.1 - 1, by omega⟩
    rw [hn, List.replicate_succ, List.cons_append]; rfl

/-- Every row occurs. -/
def Pos (l : List Row) : Prop := ∀ r ∈ l, 0 < r.1

/-- One call of `next`. -/
theorem next_spec (dup : Bool) (limit : Nat) (s : DL) (hp : Pos s.input) :
    (next dup limit s = .stop ∧ (rest dup s = [] ∨ limit ≤ s.observed)) ∨
    (∃ t s', next dup limit s = .emit (1, t) s' ∧ rest dup s = t :: rest dup s' ∧ s.observed < limit ∧ s'.observed = s.observed + 1 ∧ Pos s'.input ∧ s'.cur = t) := by
  unfold next
  by_cases hl : s.observed < limit
  · rw [if_pos hl]
    by_cases hc : s.currentCount < s.entryCount ∧ dup = true
    · rw [if_pos hc]
      refine .inr ⟨_, _, rfl, ?_, hl, rfl, hp, rfl⟩
      unfold rest
      rw [if_pos hc.2]
      obtain ⟨n, hn⟩ : ∃ n, s.entryCount - s.currentCount = n + 1 := ⟨s.entryCount - s.currentCount - 1, by omega⟩
      have h2 : s.entryCount - (s.currentCount + 1) = n := by omega
      simp only [hc.2, if_true]
      rw [hn, h2, List.replicate_succ, List.cons_append]
    · rw [if_neg hc]
      have he : (if dup then List.replicate (s.entryCount - s.currentCount) s.cur else []) = [] := by
        cases dup
        · rfl
        · have : s.entryCount - s.currentCount = 0 := by simp at hc; omega
          rw [this]; rfl
      match hi : s.input with
      | [] =>
        refine .inl ⟨rfl, .inl ?_⟩
        unfold rest
        rw [he, hi]
        cases dup <;> rfl
      | r :: rs =>
        rw [hi] at hp
        refine .inr ⟨_, _, rfl, ?_, hl, rfl, fun q hq => hp q (by simp [hq]), rfl⟩
        simp only [rest]
        rw [he, hi, sols_cons _ _ _ (hp r (by simp))]
        rfl
  · rw [if_neg hl]
    exact .inl ⟨rfl, .inr (by omega)⟩

theorem runs_spec (dup : Bool) (limit : Nat) : ∀ (n : Nat) (s : DL), Pos s.input → limit - s.observed ≤ n →
    Runs (next dup limit) s (((rest dup s).take (limit - s.observed)).map fun t => (1, t)) := by
  intro n
  induction n with
  | zero =>
    intro s hp hn
    rcases next_spec dup limit s hp with ⟨h, _⟩ | ⟨t, s', _, _, h, _⟩
    · have : limit - s.observed = 0 := by omega
      rw [this]; exact .stop h
    · omega
  | succ n ih =>
    intro s hp hn
    rcases next_spec dup limit s hp with ⟨h, h'⟩ | ⟨t, s', h1, h2, h3, h4, h5, _⟩
    · have : (rest dup s).take (limit - s.observed) = [] := by
        rcases h' with h' | h'
        · rw [h', List.take_nil]
        · have : limit - s.observed = 0 := by omega
          rw [this]; rfl
      rw [this]; exact .stop h
    · obtain ⟨k, hk⟩ : ∃ k, limit - s.observed = k + 1 := ⟨limit - s.observed - 1, by omega⟩
      rw [h2, hk, List.take_succ_cons, List.map_cons]
      refine .emit h1 ?_
      have := ih s' h5 (by omega)
      rw [h4] at this
      have h6 : limit - (s.observed + 1) = k := by omega
      rwa [h6] at this

theorem skip_spec (dup : Bool) (limit : Nat) (hl : 0 < limit) : ∀ (o : Nat) (s : DL), Pos s.input → s.observed = 0 →
    (skip dup limit o s = none ∧ (s.cur :: rest dup s).drop o = []) ∨
    ∃ s', skip dup limit o s = some s' ∧ (s.cur :: rest dup s).drop o = s'.cur :: rest dup s' ∧ Pos s'.input ∧ s'.observed = 0 := by
  intro o
  induction o with
  | zero => intro s hp h0; exact .inr ⟨s, rfl, rfl, hp, h0⟩
  | succ o ih =>
    intro s hp h0
    rw [List.drop_succ_cons, skip]
    rcases next_spec dup limit s hp with ⟨h, h'⟩ | ⟨t, s', h1, h2, h3, h4, h5, h6⟩
    · rw [h]
      refine .inl ⟨rfl, ?_⟩
      rcases h' with h' | h'
      · rw [h']; simp
      · omega
    · rw [h1]
      have := ih { s' with observed := s'.observed - 1 } h5 (by simp only; omega)
      rw [h2, ← h6]
      exact this

/-- **C73 (subqueries).** A subquery returns the solutions that LIMIT and OFFSET say, each once, with duplicates (`dup`) or without. -/
theorem C73_subquery (dup : Bool) (limit offset : Nat) (input : List Row) (hp : ∀ r ∈ input, 0 < r.1) :
    ∃ out, Returns dup limit offset input out ∧ (∀ r ∈ out, r.1 = 1) ∧
      out.map (·.2) = Spec.slice offset limit (if dup then expand input else input.map (·.2)) := by
  suffices h : Returns dup limit offset input ((Spec.slice offset limit (sols dup input)).map fun t => (1, t)) by
    refine ⟨_, h, ?_, ?_⟩
    · intro r hr
      obtain ⟨t, _, e⟩ := List.mem_map.1 hr
      rw [← e]
    · rw [List.map_map]
      exact List.map_id _
  unfold Returns first Spec.slice
  by_cases hl : 0 < limit
  · rw [if_pos hl]
    match input with
    | [] => cases dup <;> simp [sols, expand]
    | r :: rs =>
      have hr := hp r (by simp)
      have hs := skip_spec dup limit hl offset { input := rs, cur := r.2, entryCount := r.1, currentCount := 1, observed := 0 } (fun q hq => hp q (by simp [hq])) rfl
      have e : (r.2 :: rest dup { input := rs, cur := r.2, entryCount := r.1, currentCount := 1, observed := 0 }) = sols dup (r :: rs) := by
        rw [sols_cons _ _ _ hr]; rfl
      rw [e] at hs
      rcases hs with ⟨h1, h2⟩ | ⟨s', h1, h2, h3, h4⟩
      · simp only [h1, h2]; simp
      · simp only [h1, h2]
        have := runs_spec dup limit limit { s' with observed := s'.observed + 1 } h3 (by omega)
        obtain ⟨k, hk⟩ : ∃ k, limit = k + 1 := ⟨limit - 1, by omega⟩
        refine ⟨_, this, ?_⟩
        rw [h4, hk, List.take_succ_cons, List.map_cons]
        simp only [Nat.zero_add, Nat.add_sub_cancel]
        rfl
  · rw [if_neg hl]
    have : limit = 0 := by omega
    simp [this]

example : (∀ r ∈ ([(2, [1]), (3, [2])] : List Row), 0 < r.1) ∧ Returns true 2 1 [(2, [1]), (3, [2])] [(1, [1]), (1, [2])] ∧
    Returns false 2 1 [(2, [1]), (3, [2])] [(1, [2])] :=
  ⟨by decide, ⟨_, runs_of_runFor 9 (by decide +kernel), rfl⟩, ⟨_, runs_of_runFor 9 (by decide +kernel), rfl⟩⟩

/-! ## Queries -/

theorem copies_spec (limit : Nat) (c nrows : Nat) (h : nrows < limit) : copies limit c nrows = min limit (nrows + c) := by
  induction c generalizing nrows with
  | zero => rw [copies]; omega
  | succ c ih =>
    rw [copies]
    split
    · omega
    · rw [ih (nrows + 1) (by omega)]; omega

theorem expand_cons (r : Row) (l : List Row) : expand (r :: l) = List.replicate r.1 r.2 ++ expand l := rfl

theorem print_spec (limit : Nat) (l : List Row) (o nrows : Nat) (h : nrows < limit) : print limit l o nrows = Spec.slice o (limit - nrows) (expand l) := by
  unfold Spec.slice
  induction l generalizing o nrows with
  | nil => simp [print, expand]
  | cons r l ih =>
    rw [print, expand_cons]
    split
    · rename_i hc
      rw [ih _ _ h, List.drop_append, List.length_replicate, List.drop_replicate]
      have : r.1 - o = 0 := by omega
      rw [this]; simp
    · rename_i hc
      simp only [copies_spec _ _ _ h]
      rw [List.drop_append, List.length_replicate, List.drop_replicate, List.take_append, List.length_replicate, List.take_replicate]
      by_cases ho : o = 0 ∨ o < r.1
      · have h0 : o - r.1 = 0 := by omega
        have h1 : min limit (nrows + (r.1 - o)) - nrows = min (limit - nrows) (r.1 - o) := by omega
        rw [h0, h1, List.drop_zero]
        congr 1
        split
        · have : limit - nrows - (r.1 - o) = 0 := by omega
          rw [this]; rfl
        · rw [ih _ _ (by omega), List.drop_zero]
          congr 1
          omega
      · omega

/-- **C73 (text output).** Without DISTINCT a query with a LIMIT clause writes the solutions that LIMIT and OFFSET say. -/
theorem C73_print (limit offset : Nat) (hl : 0 < limit) (input : List Row) : print (limitOf (some limit)) input offset 0 = Spec.slice offset limit (expand input) := by
  rw [print_spec _ _ _ _ (by exact hl)]; rfl

example : print (limitOf (some 3)) [(2, [1]), (3, [2])] 1 0 = [[1], [2], [2]] := by decide

/-- **C73 (text output, no LIMIT, part).** A query without a LIMIT clause writes all its solutions after the offset, if they are less than 2^32.
Missing, and wrong in the code: more solutions. -/
theorem C73_print_all_partial (offset : Nat) (input : List Row) (h : (expand input).length - offset < 2 ^ 32) :
    print (limitOf none) input offset 0 = Spec.sliceOpt offset none (expand input) := by
  rw [print_spec _ _ _ _ (by decide)]
  unfold Spec.slice Spec.sliceOpt
  rw [List.take_of_length_le]
  rw [List.length_drop]
  simp only [limitOf]; omega

/-- **C73 (text output, no LIMIT) violated.** A query without a LIMIT clause with 2^32 solutions does not write all of them. -/
theorem C73_print_all_violated : ∃ input : List Row, print (limitOf none) input 0 0 ≠ Spec.sliceOpt 0 none (expand input) := by
  refine ⟨[(2 ^ 32, [7])], ?_⟩
  rw [print_spec _ _ _ _ (by decide)]
  intro h
  have := congrArg List.length h
  simp only [Spec.slice, Spec.sliceOpt, List.length_take, List.length_drop, limitOf] at this
  rw [expand_cons, List.length_append, List.length_replicate] at this
  simp [expand] at this

/-- **C73 (number of rows).** The number that is written instead of the rows is the number of the solutions that LIMIT and OFFSET say. -/
theorem C73_count (limit offset : Nat) (hl : 0 < limit) (input : List Row) : count limit input offset 0 = (Spec.slice offset limit (expand input)).length := by
  have key : ∀ (l : List Row) (o nrows : Nat), nrows < limit → count limit l o nrows = min limit (nrows + ((expand l).length - o)) := by
    intro l
    induction l with
    | nil => intro o nrows h; simp [count, expand]; omega
    | cons r l ih =>
      intro o nrows h
      rw [count, expand_cons, List.length_append, List.length_replicate]
      by_cases h0 : 0 < o
      · rw [if_pos h0]
        by_cases h1 : r.1 ≤ o
        · rw [if_pos h1]
          simp only [if_pos h]
          rw [ih _ _ h]; omega
        · rw [if_neg h1]
          simp only
          split
          · rename_i h2; rw [ih _ _ h2]; omega
          · omega
      · rw [if_neg h0]
        simp only
        split
        · rename_i h2; rw [ih _ _ h2]; omega
        · omega
  rw [key _ _ _ hl]
  simp [Spec.slice, List.length_take, List.length_drop]

example : count 3 [(2, [1]), (3, [2])] 1 0 = 3 ∧ count 10 [(2, [1]), (3, [2])] 1 0 = 4 := by decide

/-- The collected rows if every row occurs once. -/
theorem collect_ones (h : Handling) (hh : h ≠ .show) (limit : Nat) (l : List Row) (h1 : ∀ r ∈ l, r.1 = 1) (o entries : Nat) (he : entries < limit) :
    collect h limit l o entries = Spec.slice o (limit - entries) l := by
  unfold Spec.slice
  induction l generalizing o entries with
  | nil => simp [collect]
  | cons r l ih =>
    have hr := h1 r (by simp)
    rw [collect, if_neg (by rw [if_neg hh]; omega)]
    match o with
    | 0 =>
      rw [if_neg (by omega)]
      obtain ⟨k, hk⟩ : ∃ k, limit - entries = k + 1 := ⟨limit - entries - 1, by omega⟩
      rw [List.drop_zero, hk, List.take_succ_cons]
      refine congr (congrArg _ (by simp)) ?_
      split
      · have : k = 0 := by omega
        rw [this]; rfl
      · rw [ih (fun q hq => h1 q (by simp [hq])) _ _ (by omega), List.drop_zero]
        congr 1; omega
    | o + 1 =>
      rw [if_pos (by omega), hr, Nat.add_sub_cancel, List.drop_succ_cons]
      exact ih (fun q hq => h1 q (by simp [hq])) _ _ he

/-- The collected rows without an offset. -/
theorem collect_zero (h : Handling) (hh : h ≠ .show) (limit : Nat) (l : List Row) (h1 : ∀ r ∈ l, 0 < r.1) (entries : Nat) (he : entries < limit) :
    collect h limit l 0 entries = l.take (limit - entries) := by
  induction l generalizing entries with
  | nil => simp [collect]
  | cons r l ih =>
    have hr := h1 r (by simp)
    rw [collect, if_neg (by rw [if_neg hh]; omega), if_neg (by omega)]
    obtain ⟨k, hk⟩ : ∃ k, limit - entries = k + 1 := ⟨limit - entries - 1, by omega⟩
    rw [hk, List.take_succ_cons]
    refine congr (congrArg _ (by simp)) ?_
    split
    · have : k = 0 := by omega
      rw [this]; rfl
    · rw [ih (fun q hq => h1 q (by simp [hq])) _ (by omega)]
      congr 1; omega

theorem expand_ones {l : List Row} (h : ∀ r ∈ l, r.1 = 1) : expand l = l.map (·.2) := by
  induction l with
  | nil => rfl
  | cons r l ih =>
    rw [expand_cons, h r (by simp), ih fun q hq => h q (by simp [hq])]; rfl

/-- **C73 (JSON, part).** If the operators return every row once, the JSON has the solutions that LIMIT and OFFSET say.
Missing, and wrong in the code: rows that occur more than once. -/
theorem C73_json_partial (h : Handling) (hh : h = .expand ∨ h = .reduce) (limit offset : Nat) (hl : 0 < limit) (input : List Row) (h1 : ∀ r ∈ input, r.1 = 1) :
    output h limit offset input = Spec.slice offset limit (expand input) := by
  unfold output
  rw [collect_ones h (by rcases hh with rfl | rfl <;> decide) _ _ h1 _ _ hl, expand_ones h1]
  have e : ∀ r ∈ Spec.slice offset (limit - 0) input, r.1 = 1 := fun r hr => h1 r (List.mem_of_mem_drop (List.mem_of_mem_take hr))
  have : written h (Spec.slice offset (limit - 0) input) = (Spec.slice offset (limit - 0) input).map (·.2) := by
    unfold written
    split
    · exact expand_ones e
    · rfl
  rw [this]
  simp [Spec.slice]

/-- **C73 (DISTINCT, part).** With DISTINCT and no offset the first solutions are written.
Missing, and wrong in the code: an offset. -/
theorem C73_distinct_partial (limit : Nat) (hl : 0 < limit) (input : List Row) (h1 : ∀ r ∈ input, 0 < r.1) :
    output .reduce limit 0 input = Spec.slice 0 limit (input.map (·.2)) := by
  unfold output
  rw [collect_zero _ (by decide) _ _ h1 _ hl]
  simp [written, Spec.slice]

example : (∀ r ∈ ([(1, [1]), (1, [2]), (1, [1])] : List Row), r.1 = 1) ∧ output .expand 1 1 [(1, [1]), (1, [2]), (1, [1])] = [[2]] := by decide

example : (∀ r ∈ ([(2, [1]), (3, [2])] : List Row), 0 < r.1) ∧ output .reduce 1 0 [(2, [1]), (3, [2])] = [[1]] := by decide

/-- **C73 (JSON, LIMIT) violated.** With `LIMIT 1` the JSON of a query has two rows. -/
theorem C73_json_limit_violated : ∃ input : List Row, (∀ r ∈ input, 0 < r.1) ∧ (output .expand 1 0 input).length > 1 :=
  ⟨[(2, [7])], by decide, by decide⟩

/-- **C73 (DISTINCT, OFFSET) violated.** With DISTINCT the offset counts the duplicates: `OFFSET 2` skips none of three rows, because the first one occurs three times. -/
theorem C73_distinct_offset_violated : ∃ input : List Row, (∀ r ∈ input, 0 < r.1) ∧ (input.map (·.2)).Nodup ∧
    output .reduce 10 2 input ≠ Spec.slice 2 10 (input.map (·.2)) :=
  ⟨[(3, [1]), (1, [2]), (1, [3])], by decide, by decide, by decide⟩

/-- **C73 (DISTINCT, number of rows) violated.** With DISTINCT the number of rows that is written is the number with duplicates. -/
theorem C73_distinct_count_violated : ∃ input : List Row, (∀ r ∈ input, 0 < r.1) ∧ (input.map (·.2)).Nodup ∧
    count 10 input 0 0 ≠ (Spec.slice 0 10 (input.map (·.2))).length :=
  ⟨[(3, [1]), (1, [2])], by decide, by decide, by decide⟩

end Trident.Sparql.Limit
