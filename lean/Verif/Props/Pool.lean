import Verif.Pool.ReadProofs
import Verif.Pool.ThreadProofs
/-!
# The string pool

`added B ss` is the pool after adding the strings `ss`, `posOf B before` the position returned for the next string after `before` (the size of
the pool at that time).  The order of strings is `<` on lists of bytes.
-/
namespace Trident.SPool

/-- The pool after some additions. -/
def added (B : Nat) (ss : List (List UInt8)) : Pool := ss.foldl (fun p s => p.append B s) Pool.empty

/-- The position at which the next string is stored: `getSize()` (stringbuffer.cpp:323-325). -/
def posOf (B : Nat) (before : List (List UInt8)) : Nat := (added B before).total

/-- The sizes that the pool supports. -/
structure Limits (B : Nat) (ss : List (List UInt8)) : Prop where
  low : 4 ≤ B
  high : B ≤ 2 ^ 28
  fit : ∀ s ∈ ss, s.length ≤ B ∧ s.length < 2 ^ 28

theorem fold_inv {B : Nat} (hB : 4 ≤ B) (hB2 : B ≤ 2 ^ 28) : ∀ (ss : List (List UInt8)) (p : Pool), Inv B p → (∀ s ∈ ss, s.length ≤ B ∧ s.length < 2 ^ 28) →
    Inv B (ss.foldl (fun p s => p.append B s) p) ∧ ∃ x, (ss.foldl (fun p s => p.append B s) p).stream = p.stream ++ x ∧ (ss ≠ [] → x ≠ [])
  | [], p, h, _ => ⟨h, [], by simp, by simp⟩
  | s :: ss, p, h, hf => by
    obtain ⟨a, -, x, hx, hx'⟩ := append_spec hB hB2 h (hf s (by simp)).1 (hf s (by simp)).2
    obtain ⟨b, y, hy, -⟩ := fold_inv hB hB2 ss (p.append B s) a (fun t ht => hf t (by simp [ht]))
    exact ⟨b, x ++ y, by rw [List.foldl_cons, hy, hx', List.append_assoc], fun _ => by simp [hx]⟩

/-- What is in the pool after some additions. -/
theorem added_spec {B : Nat} {before after : List (List UInt8)} {s : List UInt8} (h : Limits B (before ++ s :: after)) :
    Inv B (added B (before ++ s :: after)) ∧ Entry B (added B (before ++ s :: after)).stream (posOf B before) s ∧
    (after ≠ [] → ∃ st' x, (added B (before ++ s :: after)).stream = st' ++ x ∧ x ≠ [] ∧ Entry B st' (posOf B before) s) := by
  obtain ⟨i0, -⟩ := fold_inv h.low h.high before _ (empty_inv B) (fun t ht => h.fit t (by simp [ht]))
  obtain ⟨i1, e1, -⟩ := append_spec h.low h.high i0 (h.fit s (by simp)).1 (h.fit s (by simp)).2
  obtain ⟨i2, x, hx, hx0⟩ := fold_inv h.low h.high after _ i1 (fun t ht => h.fit t (by simp [ht]))
  have e : added B (before ++ s :: after) = after.foldl (fun p s => p.append B s) ((before.foldl (fun p s => p.append B s) Pool.empty).append B s) := by
    unfold added
    rw [List.foldl_append, List.foldl_cons]
  rw [e]
  refine ⟨i2, ?_, fun ha => ⟨_, x, hx, hx0 ha, e1⟩⟩
  rw [hx]
  exact e1.mono x

/-! ## C35: what was added is returned -/

/-- Every string can be read at the position returned for it, across block boundaries and with prefixes taken from earlier strings, if
the pool does not end exactly at the end of a block or if another string was added after it. -/
theorem C35_get_partial {B : Nat} {before after : List (List UInt8)} {s : List UInt8} (junk : Mem) (h : Limits B (before ++ s :: after))
    (hend : (added B (before ++ s :: after)).total % B ≠ 0 ∨ after ≠ []) :
    ((added B (before ++ s :: after)).view junk).get B junk (posOf B before) = some s := by
  obtain ⟨i, e, e'⟩ := added_spec h
  have hs := h.fit s (by simp)
  refine get_spec h.low (view_sees i.ok junk) e hs.1 hs.2 ?_
  rcases hend with hend | hend
  · left
    have hl := i.ok.length
    have hle := i.ok.le
    rw [i.tot, hl] at hend
    have : (added B (before ++ s :: after)).cur.length ≠ B := by
      intro e0
      rw [e0, Nat.mul_comm, Nat.mul_add_mod] at hend
      simp at hend
    show _ < ((added B (before ++ s :: after)).done.length + 1) * B
    rw [hl, Nat.succ_mul]
    omega
  · exact .inr (e' hend)

/-- Four strings in blocks of 16 bytes: the third takes a prefix from the second and crosses a block. -/
example : Limits 16 [[97, 98], [104, 116, 116, 112, 58, 97, 98], [104, 116, 116, 112, 58, 97, 98], [1, 2, 3]] ∧
    (added 16 [[97, 98], [104, 116, 116, 112, 58, 97, 98], [104, 116, 116, 112, 58, 97, 98], [1, 2, 3]]).total % 16 ≠ 0 ∧
    1 ≤ (added 16 [[97, 98], [104, 116, 116, 112, 58, 97, 98], [104, 116, 116, 112, 58, 97, 98], [1, 2, 3]]).done.length := by
  refine ⟨⟨by omega, by omega, by decide⟩, by decide +kernel, by decide +kernel⟩

/-- The prefix of a string is really shared: the second string takes 5 bytes instead of 9. -/
example : (added 64 [[104, 116, 116, 112, 58, 97, 98], [104, 116, 116, 112, 58, 97, 99]]).stream =
    [7, 0, 104, 116, 116, 112, 58, 97, 98, 7, 1, 2, 6, 99] := by decide +kernel

/-- An empty string that ends at the end of the last block: reading it needs a block that is not there. -/
theorem get_end {B : Nat} (hB : 4 ≤ B) {junk : Mem} {V : View} {st : List UInt8} (h : Sees B V st) {pos : Nat}
    (hp : Placed (G st) pos [0, 0]) (hl : pos + 2 = st.length) (hn : st.length = V.n * B) : V.get B junk pos = none := by
  have hdm := Nat.div_add_mod pos B
  rw [Nat.mul_comm] at hdm
  have hml : pos % B < B := Nat.mod_lt _ (by omega)
  obtain ⟨m, hm, hmb⟩ := h.block (pos / B) (h.lt (i := pos / B) (a := pos) (by omega) (by omega))
  have e0 : encV 0 = [0] := by unfold encV; rfl
  have hp1 : Placed (G st) pos (encV 0) := by
    rw [e0]
    have := (placed_append (xs := [0]) (ys := [0])).1 hp
    exact this.1
  have hp2 : G st (pos + 1) = 0 := by
    have := (placed_append (xs := [0]) (ys := [0])).1 hp
    exact (placed_cons.1 this.2).1
  obtain ⟨c1, e1, a1⟩ := getVInt_spec hB (junk := junk) h (c := ⟨pos / B, some m, pos - pos / B * B⟩) (a := pos)
    ⟨by simp only; omega, by simp only; omega, hm.symm⟩ hp1 (by rw [e0]; simp; omega) (by omega)
  rw [e0] at a1
  obtain ⟨c2, e2, a2⟩ := getFlag_spec hB h a1 (by simp; omega)
  have hg : G st (pos + [(0 : UInt8)].length) = 0 := hp2
  rw [hg] at e2
  unfold View.get
  simp only [Option.bind_eq_bind, hm, Option.bind_some, e1, e2]
  rw [if_neg (by decide)]
  obtain ⟨b1, b2, b3⟩ := a2
  simp only [List.length_singleton] at b1
  unfold getTail
  by_cases ho : c2.off = B
  · rw [if_pos ho]
    have : V.n ≤ c2.id + 1 := by
      rcases Nat.lt_or_ge (c2.id + 1) V.n with h' | h'
      · have h1 : (c2.id + 2) * B ≤ V.n * B := Nat.mul_le_mul_right _ h'
        have h2 : (c2.id + 2) * B = c2.id * B + 2 * B := Nat.add_mul _ _ _
        omega
      · exact h'
    rw [h.out _ this]
    rfl
  · rw [if_neg ho]
    have : V.n ≤ c2.id := by
      rcases Nat.lt_or_ge c2.id V.n with h' | h'
      · have h1 : (c2.id + 1) * B ≤ V.n * B := Nat.mul_le_mul_right _ h'
        have h2 : (c2.id + 1) * B = c2.id * B + B := Nat.succ_mul _ _
        omega
      · exact h'
    rw [h.out _ this] at b3
    simp [b3]

theorem encV_65532 : encV 65532 = [252, 255, 3] := by decide +kernel

theorem encV_65530 : encV 65530 = [250, 255, 3] := by decide +kernel

theorem one_string {s : List UInt8} {n : Nat} (hs : s.length = n) (h1 : (encV n).length = 3) (hn : n ≤ 65532) :
    added 65536 [s] = ⟨[], encV n ++ [0] ++ s, n + 4, 4, n, 0, 0⟩ := by
  have hc : commonPrefix [] s = 0 := by cases s <;> rfl
  simp [added, Pool.append, Pool.header, Pool.body, Pool.writeVInt, Pool.empty, Pool.prefixSize, hs, h1, hc]
  rw [if_pos (by omega)]
  simp
  omega

theorem end_of_block {s : List UInt8} (hs : s.length = 65530) (junk : Mem) : Limits 65536 ([s] ++ [[]]) ∧
    ((added 65536 ([s] ++ [[]])).view junk).get 65536 junk (posOf 65536 [s]) = none := by
  have hlim : Limits 65536 ([s] ++ [[]]) := by
    refine ⟨by omega, by omega, fun t ht => ?_⟩
    rcases List.mem_cons.1 ht with rfl | ht
    · omega
    · rw [List.mem_singleton.1 ht]; simp
  refine ⟨hlim, ?_⟩
  have h1 : added 65536 [s] = _ := one_string hs (by rw [encV_65530]; rfl) (by omega)
  have e0 : encV 0 = [0] := by unfold encV; rfl
  have h2 : added 65536 ([s] ++ [[]]) = ⟨[], encV 65530 ++ [0] ++ s ++ [0] ++ [0], 65536, 65536, 0, 0, 0⟩ := by
    have : added 65536 ([s] ++ [[]]) = (added 65536 [s]).append 65536 [] := by
      unfold added
      rw [List.foldl_append]; rfl
    rw [this, h1]
    simp [Pool.append, Pool.header, Pool.body, Pool.writeVInt, Pool.prefixSize, encV_65530, e0, hs]
  have hpos : posOf 65536 [s] = 65534 := by unfold posOf; rw [h1]
  have hinv : Inv 65536 (added 65536 ([s] ++ [[]])) := (added_spec (after := []) hlim).1
  rw [hpos]
  have hst : (added 65536 ([s] ++ [[]])).stream = (encV 65530 ++ [0] ++ s) ++ [0, 0] := by
    rw [h2]
    simp [Pool.stream]
  have hn : ((added 65536 ([s] ++ [[]])).view junk).n = 1 := by
    rw [h2]; rfl
  have e : (encV 65530 ++ [0] ++ s).length = 65534 := by simp [encV_65530, hs]
  refine get_end (by omega) (view_sees hinv.ok junk) ?_ ?_ ?_
  · rw [hst]
    have := placed_G_end (encV 65530 ++ [0] ++ s) [0, 0]
    rw [e] at this
    exact this
  · rw [hst, List.length_append, e]; rfl
  · rw [hst, hn, List.length_append, e]; rfl

/-- C35 fails with the block size of the code: after a string of 65530 bytes an empty string ends at the end of the first block, and reading
it asks for a block that does not exist.  (The same happens to a string that is wholly a prefix of an earlier one.) -/
theorem C35_end_of_block_violated (junk : Mem) : ∃ before s, Limits 65536 (before ++ [s]) ∧
    ((added 65536 (before ++ [s])).view junk).get 65536 junk (posOf 65536 before) = none :=
  ⟨[List.replicate 65530 97], [], end_of_block List.length_replicate junk⟩

/-! ## C36: comparisons -/

/-- The comparison of a stored string with any argument has the sign of the byte-wise order. -/
theorem C36_cmp {B : Nat} {before after : List (List UInt8)} {s : List UInt8} (junk : Mem) (h : Limits B (before ++ s :: after)) (arg : List UInt8) :
    ∃ d, ((added B (before ++ s :: after)).view junk).cmp B junk (posOf B before) arg = some d ∧
      (d < 0 ↔ s < arg) ∧ (d = 0 ↔ s = arg) ∧ (0 < d ↔ arg < s) := by
  obtain ⟨i, e, -⟩ := added_spec h
  have hs := h.fit s (by simp)
  exact cmp_spec h.low (view_sees i.ok junk) e hs.1 hs.2 arg

/-- In blocks of 16 bytes, with a shared prefix: the stored string is `http:ac`. -/
example : ((added 16 [[1], [104, 116, 116, 112, 58, 97, 98], [104, 116, 116, 112, 58, 97, 99]]).view fun _ => 0).cmp 16 (fun _ => 0)
      (posOf 16 [[1], [104, 116, 116, 112, 58, 97, 98]]) [104, 116, 116, 112, 58, 98] = some (-1) ∧
    ((added 16 [[1], [104, 116, 116, 112, 58, 97, 98], [104, 116, 116, 112, 58, 97, 99]]).view fun _ => 0).cmp 16 (fun _ => 0)
      (posOf 16 [[1], [104, 116, 116, 112, 58, 97, 98]]) [104, 116, 116, 112, 58, 97, 99] = some 0 ∧
    Limits 16 [[1], [104, 116, 116, 112, 58, 97, 98], [104, 116, 116, 112, 58, 97, 99]] :=
  ⟨by decide +kernel, by decide +kernel, ⟨by omega, by omega, by decide⟩⟩

/-! ## C37: closing and reopening -/

/-- After closing and reopening, every string can be read and compared, if the size of the pool is not a multiple of the block size. -/
theorem C37_reopen_partial {B : Nat} {before after : List (List UInt8)} {s : List UInt8} (junk : Mem) (h : Limits B (before ++ s :: after))
    (hend : (added B (before ++ s :: after)).total % B ≠ 0) :
    (((added B (before ++ s :: after)).close B).view B junk).get B junk (posOf B before) = some s ∧
    ∀ arg, ∃ d, (((added B (before ++ s :: after)).close B).view B junk).cmp B junk (posOf B before) arg = some d ∧
      (d < 0 ↔ s < arg) ∧ (d = 0 ↔ s = arg) ∧ (0 < d ↔ arg < s) := by
  obtain ⟨i, e, -⟩ := added_spec h
  have hs := h.fit s (by simp)
  have hsee := close_sees i hend junk
  refine ⟨get_spec h.low hsee e hs.1 hs.2 (.inl ?_), fun arg => cmp_spec h.low hsee e hs.1 hs.2 arg⟩
  have hc := hsee.cover
  rcases Nat.lt_or_eq_of_le hc with h' | h'
  · exact h'
  · rw [i.tot, h', Nat.mul_comm, Nat.mul_mod_right] at hend
    exact absurd rfl hend

example : Limits 16 [[97, 98], [104, 116, 116, 112, 58, 97, 98], [1, 2, 3]] ∧
    (added 16 [[97, 98], [104, 116, 116, 112, 58, 97, 98], [1, 2, 3]]).total % 16 ≠ 0 ∧
    ((added 16 [[97, 98], [104, 116, 116, 112, 58, 97, 98], [1, 2, 3]]).close 16).blocks.length = 2 :=
  ⟨⟨by omega, by omega, by decide⟩, by decide +kernel, by decide +kernel⟩

theorem lost_file {s : List UInt8} (hs : s.length = 65532) : (added 65536 [s]).close 65536 = ⟨65536, []⟩ := by
  have h1 : added 65536 [s] = _ := one_string hs (by rw [encV_65532]; rfl) (by omega)
  rw [h1]
  simp [Pool.close]

theorem lost_read {s : List UInt8} (hs : s.length = 65532) (junk : Mem) : ((added 65536 [s]).view junk).get 65536 junk 0 ≠ none := by
  have hlim : Limits 65536 ([] ++ s :: []) := ⟨by omega, by omega, fun t ht => by rw [List.mem_singleton.1 ht]; omega⟩
  obtain ⟨i, e, -⟩ := added_spec hlim
  have h1 : added 65536 [s] = _ := one_string hs (by rw [encV_65532]; rfl) (by omega)
  have hsee := view_sees i.ok junk
  have hp : Placed (G (added 65536 [s]).stream) 0 (encV s.length ++ 0 :: s) := by
    rw [h1, hs]
    simpa [Pool.stream] using placed_G_end [] (encV 65532 ++ 0 :: s)
  have hl : (added 65536 [s]).stream.length = 65536 := by
    rw [h1]; simp [Pool.stream, encV_65532, hs]
  have e3 : (encV s.length).length = 3 := by rw [hs, encV_65532]; rfl
  rw [placed_append, placed_cons] at hp
  obtain ⟨hp1, hp2, hp3⟩ := hp
  obtain ⟨m, hm, hmb⟩ := hsee.block 0 (by show 0 < (added 65536 [s]).done.length + 1; omega)
  obtain ⟨c1, e1, a1⟩ := getVInt_spec (by omega) (junk := junk) hsee (c := ⟨0, some m, 0⟩) (a := 0) ⟨by simp, by simp, hm.symm⟩ hp1
    (by show _ ≤ (added 65536 [s]).stream.length; omega) (by omega)
  obtain ⟨c2, e2, a2⟩ := getFlag_spec (by omega) hsee a1 (by show _ < (added 65536 [s]).stream.length; omega)
  have hmove : c2.id = 0 ∧ c2.off = 4 := by
    have h1 := a2.pos
    have h2 := a2.off
    rcases Nat.eq_zero_or_pos c2.id with h | h
    · rw [h] at h1; omega
    · have : 1 * 65536 ≤ c2.id * 65536 := Nat.mul_le_mul_right _ h
      omega
  have hp2' : G (added 65536 ([] ++ [s])).stream (0 + (encV s.length).length) = 0 := hp2
  rw [hp2'] at e2
  have hb : c2.blk = some m := by rw [a2.blk, hmove.1, hm]
  have hview : (added 65536 ([] ++ [s])).view junk = (added 65536 [s]).view junk := rfl
  rw [hview] at e1 e2 hm
  unfold View.get
  simp only [Option.bind_eq_bind, Nat.zero_div, Nat.zero_mul, Nat.sub_zero, hm, Option.bind_some, e1, e2]
  rw [if_neg (by decide)]
  unfold getTail
  rw [if_neg (by omega)]
  simp only [Option.bind_eq_bind, Option.bind_some, hb]
  rw [if_neg (by omega)]
  unfold copy
  rw [if_pos (by omega)]
  simp

theorem lost_string {s : List UInt8} (hs : s.length = 65532) (junk : Mem) : ((added 65536 [s]).view junk).get 65536 junk 0 ≠ none ∧
    ((added 65536 [s]).close 65536).blocks = [] ∧ (((added 65536 [s]).close 65536).view 65536 junk).get 65536 junk 0 = none := by
  refine ⟨lost_read hs junk, by rw [lost_file hs], ?_⟩
  rw [lost_file hs]
  rfl

/-- C37 fails with the block size of the code: a string of 65532 bytes fills the first block; it can be read, but it is not in the file. -/
theorem C37_lost_violated (junk : Mem) : ∃ s, Limits 65536 [s] ∧ ((added 65536 [s]).view junk).get 65536 junk 0 ≠ none ∧
    ((added 65536 [s]).close 65536).blocks = [] ∧ (((added 65536 [s]).close 65536).view 65536 junk).get 65536 junk 0 = none := by
  refine ⟨List.replicate 65532 97, ⟨by omega, by omega, fun s hs => ?_⟩, lost_string List.length_replicate junk⟩
  rw [List.mem_singleton.1 hs, List.length_replicate]
  omega

/-- C37 fails also for the strings before: with blocks of 8 bytes (the argument does not depend on the size) two blocks are filled, the
second is not written and the first, now the last of the file, is decompressed into no bytes at all. -/
theorem C37_previous_block_violated (junk : Mem) : ∃ before s t, Limits 8 (before ++ [s, t]) ∧ posOf 8 before = 0 ∧
    ((added 8 (before ++ [s, t])).view junk).get 8 junk 0 = some s ∧ ((added 8 (before ++ [s, t])).close 8).blocks.length = 1 ∧
    (((added 8 (before ++ [s, t])).close 8).view 8 junk).get 8 junk 0 = none := by
  refine ⟨[], [1, 2, 3, 4, 5, 6], [7, 8, 9, 10, 11, 12], ⟨by omega, by omega, by decide⟩, rfl, ?_, by decide +kernel, ?_⟩
  · exact C35_get_partial (before := []) (after := [[7, 8, 9, 10, 11, 12]]) junk ⟨by omega, by omega, by decide⟩ (.inr (by simp))
  · have hf : (added 8 ([] ++ [[1, 2, 3, 4, 5, 6], [7, 8, 9, 10, 11, 12]])).close 8 = ⟨16, [[6, 0, 1, 2, 3, 4, 5, 6]]⟩ := by decide +kernel
    rw [hf]
    simp [View.get, Files.view]

/-! ## C38: the compression thread -/

/-- Under every schedule, with any number of spurious wake-ups, the blocks in the file are a prefix of the blocks handed over, in order;
at most two are missing, one in the hands of the compression thread and one in the slot. -/
theorem C38_order {s : St} (h : Reach (fun _ => True) s) :
    ∃ taken slot : List Block, s.handed = s.file ++ (taken ++ slot) ∧ taken.length ≤ 1 ∧ slot.length ≤ 1 ∧ (s.slot = .empty → slot = []) := by
  refine ⟨s.t.held, s.slot.held, (reach_order h).symm, ?_, ?_, ?_⟩
  · unfold TPc.held; split <;> simp
  · unfold Slot.held; split <;> simp
  · intro e; rw [e]; rfl

/-- When the destructor returns, every block handed over is in the file. -/
theorem C38_complete {s : St} (h : Reach (fun _ => True) s) (hc : s.w = .closed) : s.file = s.handed := by
  have g := reach_good h
  have := good_fact (P := fun c => c.w != .closed || (c.slot == .empty && (c.t == .tNotify || c.t == .exit))) (by decide +kernel) g
  have hk : s.ctl.w = .closed := by simp [St.ctl, hc, WPc.kind]
  rw [hk] at this
  simp [St.ctl, kind_empty] at this
  obtain ⟨h1, h2⟩ := this
  have ho := reach_order h
  have h3 : s.t.held = [] := by
    cases ht : s.t <;> simp [ht, TPc.kind, TPc.held] at h2 ⊢
    rename_i x
    cases x <;> simp at h2
  rw [h1, h3] at ho
  simpa [Slot.held] using ho

/-- A schedule in which the writer hands over two blocks and has to wait for the second hand-over. -/
theorem ex_schedule : Reach (· ≠ .spurious) ⟨.idle, .work [2], none, .empty, true, [[1], [2]], [[1]]⟩ := by
  refine .step (l := .internal) ?_ (by decide) (.wNotify ⟨.notify, .work [2], none, .empty, true, [[1], [2]], [[1]]⟩ rfl)
  refine .step (l := .internal) ?_ (by decide) (.cNotify ⟨.notify, .notify (.block [2]), none, .empty, true, [[1], [2]], [[1]]⟩ [2] rfl)
  refine .step (l := .internal) ?_ (by decide) (.cTake ⟨.notify, .take, some .thread, .block [2], true, [[1], [2]], [[1]]⟩ rfl)
  refine .step (l := .internal) ?_ (by decide) (.cFull ⟨.notify, .check, some .thread, .block [2], true, [[1], [2]], [[1]]⟩ rfl (by decide))
  refine .step (l := .internal) ?_ (by decide) (.cLock ⟨.notify, .lock, none, .block [2], true, [[1], [2]], [[1]]⟩ rfl rfl)
  refine .step (l := .internal) ?_ (by decide) (.cWork ⟨.notify, .work [1], none, .block [2], true, [[1], [2]], []⟩ [1] rfl)
  refine .step (l := .internal) ?_ (by decide) (.wPut ⟨.check [2], .work [1], some .writer, .empty, true, [[1]], []⟩ [2] rfl rfl)
  refine .step (l := .internal) ?_ (by decide) (.wLock ⟨.lock [2], .work [1], none, .empty, true, [[1]], []⟩ [2] rfl rfl)
  refine .step (l := .internal) ?_ (by decide) (.cNotify ⟨.wait [2], .notify (.block [1]), none, .empty, true, [[1]], []⟩ [1] rfl)
  refine .step (l := .internal) ?_ (by decide) (.cTake ⟨.wait [2], .take, some .thread, .block [1], true, [[1]], []⟩ rfl)
  refine .step (l := .internal) ?_ (by decide) (.cFull ⟨.wait [2], .check, some .thread, .block [1], true, [[1]], []⟩ rfl (by decide))
  refine .step (l := .internal) ?_ (by decide) (.cLock ⟨.wait [2], .lock, none, .block [1], true, [[1]], []⟩ rfl rfl)
  refine .step (l := .internal) ?_ (by decide) (.wWait ⟨.goWait [2], .lock, some .writer, .block [1], true, [[1]], []⟩ [2] rfl)
  refine .step (l := .internal) ?_ (by decide) (.wFull ⟨.check [2], .lock, some .writer, .block [1], true, [[1]], []⟩ [2] rfl (by decide))
  refine .step (l := .internal) ?_ (by decide) (.wLock ⟨.lock [2], .lock, none, .block [1], true, [[1]], []⟩ [2] rfl rfl)
  refine .step (l := .client) ?_ (by decide) (.call ⟨.idle, .lock, none, .block [1], true, [[1]], []⟩ [2] rfl)
  refine .step (l := .internal) ?_ (by decide) (.wNotify ⟨.notify, .lock, none, .block [1], true, [[1]], []⟩ rfl)
  refine .step (l := .internal) ?_ (by decide) (.wPut ⟨.check [1], .lock, some .writer, .empty, true, [], []⟩ [1] rfl rfl)
  refine .step (l := .internal) ?_ (by decide) (.wLock ⟨.lock [1], .lock, none, .empty, true, [], []⟩ [1] rfl rfl)
  refine .step (l := .client) .init (by decide) (.call _ [1] rfl)

/-! ## C39: closing terminates -/

/-- From every reachable state the two threads make at most 33 steps on their own, and when no step is left, the hand-over or the
destructor has returned, or the destructor waits for ever because one of two notifications was lost: `FINISH_THREAD` is in the slot and
the compression thread waits, or the compression thread has ended and the destructor waits for it.  So a hand-over always returns. -/
theorem C39_close_partial {s s' : St} {n : Nat} (h : Reach (fun _ => True) s) (hr : Runs n s s') :
    n ≤ 33 ∧ ((¬ ∃ s'', Step .internal s' s'') → s'.w = .idle ∨ (s'.w = .closed ∧ s'.file = s'.handed) ∨
      (s'.w = .tWait ∧ s'.slot = .finish ∧ s'.t = .wait) ∨ (s'.w = .tWait ∧ s'.t = .exit)) := by
  obtain ⟨g', hn⟩ := runs_good (reach_good h) hr
  have := rank_le s.ctl
  refine ⟨by omega, fun hstuck => ?_⟩
  rcases stuck_spec g' hstuck with ⟨a, -⟩ | ⟨a, b, c⟩ | h | h
  · exact .inl a
  · refine .inr (.inl ⟨a, C38_complete ?_ a⟩)
    have key : ∀ {n s s'}, Reach (fun _ => True) s → Runs n s s' → Reach (fun _ => True) s' := by
      intro n s s' h hr
      induction hr with
      | refl => exact h
      | step _ hs ih => exact .step (l := .internal) (ih h) trivial hs
    exact key h hr
  · exact .inr (.inr (.inl h))
  · exact .inr (.inr (.inr h))

/-- C39 fails: `FINISH_THREAD` is stored and announced without the lock between the test and the wait of the compression thread.  Both
threads wait, without any spurious wake-up before. -/
theorem C39_lost_finish_violated : ∃ s, Reach (· ≠ .spurious) s ∧ s.w = .tWait ∧ s.t = .wait ∧ s.slot = .finish ∧ ∀ l s', Step l s s' → l = .spurious := by
  refine ⟨⟨.tWait, .wait, none, .finish, true, [], []⟩, ?_, rfl, rfl, rfl, ?_⟩
  · refine .step (l := .internal) ?_ (by decide) (.tWait ⟨.tGoWait, .wait, none, .finish, true, [], []⟩ rfl)
    refine .step (l := .internal) ?_ (by decide) (.tRunning ⟨.tCheck, .wait, none, .finish, true, [], []⟩ rfl rfl)
    refine .step (l := .internal) ?_ (by decide) (.cWait ⟨.tCheck, .goWait, some .thread, .finish, true, [], []⟩ rfl)
    refine .step (l := .internal) ?_ (by decide) (.dNotify ⟨.dNotify, .goWait, some .thread, .finish, true, [], []⟩ rfl)
    refine .step (l := .internal) ?_ (by decide) (.dSet ⟨.dSet, .goWait, some .thread, .empty, true, [], []⟩ rfl)
    refine .step (l := .internal) ?_ (by decide) (.cEmpty ⟨.dSet, .check, some .thread, .empty, true, [], []⟩ rfl rfl)
    refine .step (l := .internal) ?_ (by decide) (.cLock ⟨.dSet, .lock, none, .empty, true, [], []⟩ rfl rfl)
    refine .step (l := .internal) ?_ (by decide) (.dUnlock ⟨.dCheck, .lock, some .writer, .empty, true, [], []⟩ rfl rfl)
    refine .step (l := .internal) ?_ (by decide) (.dLock ⟨.dLock, .lock, none, .empty, true, [], []⟩ rfl rfl)
    exact .step (l := .client) .init (by decide) (.destroy _ rfl)
  · intro l s' hs
    cases hs <;> simp at *

/-- C39 fails also at the end: `threadRunning` is cleared and announced without the lock between the test and the wait of the destructor. -/
theorem C39_lost_end_violated : ∃ s, Reach (· ≠ .spurious) s ∧ s.w = .tWait ∧ s.t = .exit ∧ s.running = false ∧ ∀ l s', Step l s s' → l = .spurious := by
  refine ⟨⟨.tWait, .exit, none, .empty, false, [], []⟩, ?_, rfl, rfl, rfl, ?_⟩
  · refine .step (l := .internal) ?_ (by decide) (.tWait ⟨.tGoWait, .exit, none, .empty, false, [], []⟩ rfl)
    refine .step (l := .internal) ?_ (by decide) (.cTerm ⟨.tGoWait, .tNotify, none, .empty, false, [], []⟩ rfl)
    refine .step (l := .internal) ?_ (by decide) (.cStop ⟨.tGoWait, .stop, none, .empty, true, [], []⟩ rfl)
    refine .step (l := .internal) ?_ (by decide) (.tRunning ⟨.tCheck, .stop, none, .empty, true, [], []⟩ rfl rfl)
    refine .step (l := .internal) ?_ (by decide) (.cNotifyEnd ⟨.tCheck, .notify .finish, none, .empty, true, [], []⟩ rfl)
    refine .step (l := .internal) ?_ (by decide) (.cTake ⟨.tCheck, .take, some .thread, .finish, true, [], []⟩ rfl)
    refine .step (l := .internal) ?_ (by decide) (.cFull ⟨.tCheck, .check, some .thread, .finish, true, [], []⟩ rfl (by decide))
    refine .step (l := .internal) ?_ (by decide) (.cLock ⟨.tCheck, .lock, none, .finish, true, [], []⟩ rfl rfl)
    refine .step (l := .internal) ?_ (by decide) (.dNotify ⟨.dNotify, .lock, none, .finish, true, [], []⟩ rfl)
    refine .step (l := .internal) ?_ (by decide) (.dSet ⟨.dSet, .lock, none, .empty, true, [], []⟩ rfl)
    refine .step (l := .internal) ?_ (by decide) (.dUnlock ⟨.dCheck, .lock, some .writer, .empty, true, [], []⟩ rfl rfl)
    refine .step (l := .internal) ?_ (by decide) (.dLock ⟨.dLock, .lock, none, .empty, true, [], []⟩ rfl rfl)
    exact .step (l := .client) .init (by decide) (.destroy _ rfl)
  · intro l s' hs
    cases hs <;> simp at *

end Trident.SPool
