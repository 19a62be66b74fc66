import Verif.Files.ManagerProofs
/-! # Memory manager and file manager: the properties -/
namespace Trident.Files

/-! ## C44 -/

/-- The registered blocks. -/
def Mm.registered (m : Mm) : List Blk := m.slots.filterMap id

theorem total_registered : ∀ l : List (Option Blk), total l = ((l.filterMap id).map Blk.bytes).sum
  | [] => rfl
  | none :: l => by have := total_registered l; simp [total, size] at this ⊢; exact this
  | some b :: l => by have := total_registered l; simp [total, size] at this ⊢; exact this

/-- **C44, the accounting.** After every history the byte counter is the sum of the sizes of the registered blocks. -/
theorem C44_accounting {N : Nat} {max : Int} (hN : 0 < N) {ops : List MOp} {m : Mm} (h : (Mm.empty N).runs N max ops = some m) :
    m.bytes = ((m.registered.map Blk.bytes).sum : Nat) := by
  have := (runs_minv hN (empty_minv N) h).bytes
  rw [this, total_registered]
  rfl

/-- **C44, eviction.** After every history, registering a new block evicts only blocks that are not locked; it leaves every other block as it is
and uses a slot that was empty or has been emptied. -/
theorem C44_eviction {N : Nat} {max : Int} (hN : 0 < N) {ops : List MOp} {m m' : Mm} (h : (Mm.empty N).runs N max ops = some m)
    {bytes owner e : Nat} {evicted : List Nat} (ha : m.add N max bytes owner = some (m', e, evicted)) :
    (∀ i ∈ evicted, ∃ b, m.get i = some b ∧ b.lock ≤ 0) ∧
    (∀ i b, m.get i = some b → b.lock > 0 → m'.get i = some b) ∧
    (∀ i, i ≠ e → m'.get i = if i ∈ evicted then none else m.get i) ∧
    m'.get e = some ⟨owner, bytes, 0⟩ ∧ (m.get e = none ∨ e ∈ evicted) := by
  obtain ⟨-, a2, a3, a4, -⟩ := add_spec hN (runs_minv hN (empty_minv N) h) ha
  refine ⟨fun i hi => ?_, fun i b hb hl => ?_, fun i hi => by rw [a4, if_neg hi], by rw [a4, if_pos rfl], a3⟩
  · obtain ⟨x, hx, hl⟩ := a2 i hi
    exact ⟨x, hx, by omega⟩
  · have hn : i ∉ evicted := fun hi => by
      obtain ⟨x, hx, hl'⟩ := a2 i hi
      rw [hb] at hx
      cases hx
      exact hl' hl
    rw [a4, if_neg, if_neg hn, hb]
    rintro rfl
    rcases a3 with a3 | a3
    · rw [hb] at a3; cases a3
    · exact hn a3

/-- Three blocks in three slots, the first locked; a fourth evicts another one, not the first. -/
def exOps : List MOp := [.add 40 10, .add 40 11, .lock 0, .add 15 12]

example : ((Mm.empty 3).runs 3 100 exOps).map (fun m => (m.bytes, m.registered.map Blk.bytes, m.get 0)) = some (95, [40, 40, 15], some ⟨10, 40, 1⟩) ∧
    (((Mm.empty 3).runs 3 100 exOps).bind fun m => (m.add 3 100 30 13)).map (fun r => (r.1.bytes, r.2)) = some (85, 1, [1]) := by decide +kernel

/-- **C44, the limit.** After registering a block, either the limit holds or only the last block exceeds it; as long as the limit allows it nothing
is evicted. -/
theorem C44_limit {N : Nat} {max : Int} (hN : 0 < N) {ops : List MOp} {m m' : Mm} (h : (Mm.empty N).runs N max ops = some m)
    {bytes owner e : Nat} {evicted : List Nat} (ha : m.add N max bytes owner = some (m', e, evicted)) :
    (m'.bytes ≤ max ∨ m'.bytes - bytes < max) ∧ (m.bytes + bytes ≤ max → evicted = []) := by
  obtain ⟨-, -, -, -, a5, a6⟩ := add_spec hN (runs_minv hN (empty_minv N) h) ha
  exact ⟨a5, a6⟩

/-! ## C58: registering a block returns -/

/-- **C58, partial.** After every history, registering a block returns if the locked blocks together are below the limit, and there is an empty slot
or a block that must go and can go.  Missing: the cases below, in which the call does not return. -/
theorem C58_returns_partial {N : Nat} {max : Int} (hN : 0 < N) {ops : List MOp} {m : Mm} (h : (Mm.empty N).runs N max ops = some m)
    (bytes owner : Nat) (hl : (((m.registered.filter fun b => b.lock > 0).map Blk.bytes).sum : Nat) < max)
    (hr : (∃ i, i < N ∧ m.get i = none) ∨ (m.bytes + bytes > max ∧ ∃ i b, m.get i = some b ∧ b.lock ≤ 0)) :
    ∃ r, m.add N max bytes owner = some r := by
  have inv := runs_minv hN (empty_minv N) h
  refine add_returns owner hN inv ?_ ?_
  · have : ∀ l : List (Option Blk), lockedBytes l = (((l.filterMap id).filter fun b => decide (b.lock > 0)).map Blk.bytes).sum := by
      intro l
      induction l with
      | nil => rfl
      | cons o l ih =>
        unfold lockedBytes at ih ⊢
        cases o with
        | none => simpa using ih
        | some b =>
          by_cases hb : b.lock > 0
          · simp [hb, total, size] at ih ⊢; exact ih
          · simp [hb, total, size] at ih ⊢; exact ih
    rw [this]
    exact hl
  · rcases hr with ⟨i, hi, hn⟩ | ⟨h1, i, b, hb, hl⟩
    · left
      rw [inv.left]
      exact List.countP_pos_iff.2 ⟨none, List.mem_of_getElem? (get_none (by rw [inv.len]; exact hi) hn), by simp⟩
    · exact .inr ⟨h1, i, b, hb, by omega⟩

example : ∃ m, (Mm.empty 3).runs 3 100 exOps = some m ∧ (((m.registered.filter fun b => b.lock > 0).map Blk.bytes).sum : Nat) < (100 : Int) ∧
    (m.bytes + (30 : Nat) > 100 ∧ ∃ i b, m.get i = some b ∧ b.lock ≤ 0) :=
  ⟨⟨[some ⟨10, 40, 1⟩, some ⟨11, 40, 0⟩, some ⟨12, 15, 0⟩], 0, 3, 95, 0⟩, by decide +kernel, by decide +kernel, by decide +kernel, 1, ⟨11, 40, 0⟩, by decide +kernel⟩

/-- **C58 does not hold if all memory is locked**: the manager looks for a block to evict for ever. -/
theorem C58_all_locked_violated : ∃ (ops : List MOp) (m : Mm), (Mm.empty 8).runs 8 100 ops = some m ∧ (∃ i, i < 8 ∧ m.get i = none) ∧
    m.add 8 100 1 7 = none :=
  ⟨[.add 60 0, .lock 0, .add 60 1, .lock 1],
    ⟨[some ⟨0, 60, 1⟩, some ⟨1, 60, 1⟩, none, none, none, none, none, none], 0, 2, 120, 6⟩, by decide +kernel, ⟨2, by decide, by decide +kernel⟩, by decide +kernel⟩

/-- **C58 does not hold if all slots are used and the memory fits**: nothing is evicted, and the manager looks for an empty slot for ever. -/
theorem C58_full_violated : ∃ (ops : List MOp) (m : Mm), (Mm.empty 2).runs 2 100 ops = some m ∧ (∃ i b, m.get i = some b ∧ b.lock ≤ 0) ∧
    m.add 2 100 1 7 = none :=
  ⟨[.add 1 0, .add 1 1], ⟨[some ⟨0, 1, 0⟩, some ⟨1, 1, 0⟩], 0, 2, 2, 0⟩, by decide +kernel, ⟨0, ⟨0, 1, 0⟩, by decide +kernel, by decide⟩, by decide +kernel⟩

/-! ## C45 -/

/-- The calls of clients, with the sessions they have open: a session is open from `newSession` to `closeSession`; only open sessions are used. -/
inductive Hist (N S : Nat) (max maxFiles : Int) (mm : Option Mm) : Fm → List Nat → Prop
  | start : Hist N S max maxFiles mm (Fm.empty S mm) []
  | open_ {F F' : Fm} {l : List Nat} {s : Nat} : Hist N S max maxFiles mm F l → F.newSession S = some (F', s) → Hist N S max maxFiles mm F' (s :: l)
  | close {F F' : Fm} {l : List Nat} {s : Nat} : Hist N S max maxFiles mm F l → s ∈ l → F.closeSession s = some F' →
      Hist N S max maxFiles mm F' (l.filter (· ≠ s))
  | load {F F' : Fm} {l : List Nat} {f size : Nat} : Hist N S max maxFiles mm F l → F.load N max maxFiles f size = some F' → Hist N S max maxFiles mm F' l
  | read {F F' : Fm} {l : List Nat} {f size s : Nat} : Hist N S max maxFiles mm F l → s ∈ l → F.getBuffer N max maxFiles f size s = some F' →
      Hist N S max maxFiles mm F' l

theorem Hist.inv {N S : Nat} {max maxFiles : Int} {mm : Option Mm} (hS : 0 < S) {F : Fm} {l : List Nat} (h : Hist N S max maxFiles mm F l) :
    OInv S F ∧ l.Nodup ∧ ∀ s, s ∈ l ↔ s < S ∧ F.sessions[s]? ≠ some (-3) := by
  induction h with
  | start =>
    refine ⟨empty_oinv hS mm, by simp, fun s => ?_⟩
    simp only [List.not_mem_nil, false_iff, not_and, Fm.empty]
    intro hs
    simp [List.getElem?_replicate, hs]
  | @open_ _ _ _ u _ hn ih =>
    obtain ⟨i1, i2, i3⟩ := ih
    obtain ⟨h1, h2, h3, h4⟩ := newSession_vals hS i1 hn
    refine ⟨h1, List.nodup_cons.2 ⟨fun hm => ((i3 _).1 hm).2 h3, i2⟩, fun t => ?_⟩
    rw [h4, List.mem_cons, i3]
    by_cases ht : t = u
    · rw [ht, List.getElem?_set_self (by rw [i1.len]; exact h2)]
      simp [h2]
    · rw [List.getElem?_set_ne (fun e => ht e.symm)]
      simp [ht]
  | @close _ _ _ u _ hm hc ih =>
    obtain ⟨i1, i2, i3⟩ := ih
    obtain ⟨h1, h2, h4⟩ := closeSession_vals i1 hc
    refine ⟨h1, i2.filter _, fun t => ?_⟩
    rw [h4, List.mem_filter, i3]
    by_cases ht : t = u
    · rw [ht, List.getElem?_set_self (by rw [i1.len]; exact h2)]
      simp
    · rw [List.getElem?_set_ne (fun e => ht e.symm)]
      simp [ht]
  | load _ hl ih =>
    obtain ⟨i1, i2, i3⟩ := ih
    obtain ⟨h1, h2⟩ := load_vals i1 hl
    exact ⟨h1, i2, fun t => by rw [h2]; exact i3 t⟩
  | @read _ _ _ _ _ u _ hm hl ih =>
    obtain ⟨i1, i2, i3⟩ := ih
    obtain ⟨h1, h2, v, hv, h4⟩ := getBuffer_vals i1 hl
    refine ⟨h1, i2, fun t => ?_⟩
    rw [h4]
    by_cases ht : t = u
    · rw [ht, List.getElem?_set_self (by rw [i1.len]; exact h2)]
      refine ⟨fun _ => ⟨h2, fun e => ?_⟩, fun _ => hm⟩
      injection e with e
      omega
    · rw [List.getElem?_set_ne (fun e => ht e.symm)]
      exact i3 t

/-- **C45, distinct.** After every history `newSession` returns an identifier in range that is not open. -/
theorem C45_distinct {N S : Nat} {max maxFiles : Int} {mm : Option Mm} (hS : 0 < S) {F F' : Fm} {l : List Nat} {s : Nat}
    (h : Hist N S max maxFiles mm F l) (hn : F.newSession S = some (F', s)) : s < S ∧ s ∉ l := by
  obtain ⟨i1, -, i3⟩ := h.inv hS
  obtain ⟨-, h2, h3, -⟩ := newSession_vals hS i1 hn
  exact ⟨h2, fun hm => ((i3 s).1 hm).2 h3⟩

/-- **C45, failure.** After every history `newSession` fails only if all identifiers are open. -/
theorem C45_full {N S : Nat} {max maxFiles : Int} {mm : Option Mm} (hS : 0 < S) {F : Fm} {l : List Nat}
    (h : Hist N S max maxFiles mm F l) (hn : F.newSession S = none) : ∀ s, s < S → s ∈ l := by
  obtain ⟨i1, -, i3⟩ := h.inv hS
  exact fun s hs => (i3 s).2 ⟨hs, newSession_none i1 hn hs⟩

/-- Two sessions: open both, close the first, open again: the first identifier; then none is left. -/
def exF (ops : List FOp) : Option Fm := (Fm.empty 2 none).runs 0 2 0 4 ops

example : ((exF []).bind fun F => F.newSession 2).map (·.2) = some 0 ∧ ((exF [.newSession, .read 3 5 0]).bind fun F => F.newSession 2).map (·.2) = some 1 ∧
    ((exF [.newSession, .read 3 5 0, .newSession, .closeSession 0]).bind fun F => F.newSession 2).map (·.2) = some 0 ∧
    (((exF [.newSession, .read 3 5 0, .newSession, .closeSession 0, .newSession]).bind fun F => F.newSession 2).map (·.2)) = none := by decide +kernel

example : ∃ F, Hist 0 2 0 4 none F [1, 0] ∧ F.newSession 2 = none ∧ (F.opened 3).isSome :=
  ⟨_, .read (f := 3) (size := 5) (s := 0) (.open_ (.open_ .start rfl) rfl) (by decide) rfl, by decide +kernel, by decide +kernel⟩

/-! ## C55 -/

/-- **C55, with a memory manager.** A file read through a session stays open, in the same block of memory, until the session reads again or is
closed, whatever else is called in between. -/
theorem C55_held {N S : Nat} {max maxFiles : Int} (hN : 0 < N) (hS : 0 < S) {before after : List FOp} {f size s : Nat} {F F' : Fm}
    (h : (Fm.empty S (some (Mm.empty N))).runs N S max maxFiles (before ++ [.read f size s]) = some F)
    (h' : F.runs N S max maxFiles after = some F')
    (ha : ∀ o ∈ after, (∀ g z, o ≠ .read g z s) ∧ o ≠ .closeSession s) : (F.opened f).isSome ∧ F'.opened f = F.opened f := by
  obtain ⟨F0, h0, h1⟩ := runs_append h
  obtain ⟨m0, i0⟩ := runs_finv hN hS (empty_finv hS) h0
  simp only [Fm.runs] at h1
  cases e : F0.run N S max maxFiles (.read f size s) with
  | none => rw [e] at h1; cases h1
  | some F1 =>
    rw [e] at h1
    cases h1
    obtain ⟨m1, i1, -, hs, ⟨v, hv, hss⟩, -⟩ := getBuffer_finv hN i0 e
    obtain ⟨i, b, rfl, -, -⟩ := i1.open_ f v hv
    refine ⟨by rw [hv]; rfl, ?_⟩
    rw [hv]
    refine runs_stays (s := s) hN hS i1 h' hv (by rw [hss, List.getElem?_set_self (by rw [i0.len]; exact hs)]) (fun o ho => ?_)
    cases o with
    | load g z => trivial
    | newSession => trivial
    | read g z t => rintro rfl; exact (ha _ ho).1 g z rfl
    | closeSession t => rintro rfl; exact (ha _ ho).2 rfl

/-- Room for 100 bytes: file 1 stays open while 2, 3 and 4 are read through another session. -/
example : (((Fm.empty 4 (some (Mm.empty 8))).runs 8 4 100 3 ([.newSession, .newSession] ++ [.read 1 30 0])).bind fun F =>
    F.runs 8 4 100 3 [.read 2 60 1, .read 3 60 1, .load 4 60]).map (fun F => (F.opened 1, F.opened 2, F.opened 3, F.opened 4)) =
    some (some 0, none, some 2, some 3) := by decide +kernel

/-- **C55, graph opened for reading.** Without a memory manager no file is ever closed. -/
theorem C55_read_only {N S : Nat} {max maxFiles : Int} (hM : 0 < maxFiles) {before after : List FOp} {f : Nat} {F F' : Fm}
    (h : (Fm.empty S none).runs N S max maxFiles before = some F) (h' : F.runs N S max maxFiles after = some F') (hf : (F.opened f).isSome) :
    F'.opened f = F.opened f := by
  obtain ⟨v, hv⟩ := Option.isSome_iff_exists.1 hf
  rw [hv]
  exact (runs_read hM (runs_read hM (empty_rinv S) h).1 h').2 f v hv

/-- **C55, graph opened for reading, the calls return.** Every file can be opened and read through every session after every history. -/
theorem C55_read_only_returns {N S : Nat} {max maxFiles : Int} (hM : 0 < maxFiles) {before : List FOp} {F : Fm}
    (h : (Fm.empty S none).runs N S max maxFiles before = some F) (f size : Nat) {s : Nat} (hs : s < S) :
    (∃ F', F.load N max maxFiles f size = some F') ∧ ∃ F', F.getBuffer N max maxFiles f size s = some F' := by
  have inv := (runs_read hM (empty_rinv S) h).1
  obtain ⟨F1, h1, -⟩ := load_read (N := N) (max := max) hM inv f size
  obtain ⟨F2, h2, -⟩ := getBuffer_read (N := N) (max := max) hM inv f size hs
  exact ⟨⟨F1, h1⟩, F2, h2⟩

/-- More files than the limit, all stay open. -/
example : ((Fm.empty 4 none).runs 0 4 0 2 [.newSession, .read 1 60 0, .load 2 5, .load 3 5, .load 4 5, .read 5 1 0]).map
    (fun F => ([1, 2, 3, 4, 5].map fun f => (F.opened f).isSome, F.tracker, F.nOpened)) = some ([true, true, true, true, true], [4, 5], 5) := by
  decide +kernel

end Trident.Files
