import Verif.Pool.WriteProofs
/-! # The string pool: what is read -/
namespace Trident.SPool

/-- The blocks of a reader hold the bytes written. -/
structure Sees (B : Nat) (V : View) (st : List UInt8) : Prop where
  cover : st.length ≤ V.n * B
  block : ∀ i, i < V.n → ∃ m, V.block i = some m ∧ ∀ j, j < B → i * B + j < st.length → m j = G st (i * B + j)
  out : ∀ i, V.n ≤ i → V.block i = none

structure At (B : Nat) (V : View) (c : Cursor) (a : Nat) : Prop where
  pos : c.id * B + c.off = a
  off : c.off ≤ B
  blk : c.blk = V.block c.id

theorem Sees.lt {B : Nat} {V : View} {st : List UInt8} (h : Sees B V st) {i a : Nat} (hi : i * B ≤ a) (ha : a < st.length) : i < V.n := by
  have := h.cover
  exact Nat.lt_of_mul_lt_mul_right (a := B) (by omega)

theorem getVInt_spec {B : Nat} (hB : 4 ≤ B) {junk : Mem} {V : View} {st : List UInt8} (h : Sees B V st) {c : Cursor} {a n : Nat} (hc : At B V c a)
    (hp : Placed (G st) a (encV n)) (hl : a + (encV n).length ≤ st.length) (hn : n < 2 ^ 28) :
    ∃ c', getVInt B junk V c = some (n, c') ∧ At B V c' (a + (encV n).length) := by
  obtain ⟨id, blk, off⟩ := c
  obtain ⟨h1, h2, h3⟩ := hc
  simp only at h1 h2 h3
  have hlen := encV_length_le4 hn
  have hpos := encV_length_pos n
  have hid : id < V.n := h.lt (i := id) (a := a) (by omega) (by omega)
  obtain ⟨m, hm, hmb⟩ := h.block id hid
  rw [hm] at h3
  subst h3
  unfold getVInt
  simp only [Option.bind_eq_bind, Option.bind_some]
  by_cases hr : B - off < 4
  · rw [if_pos hr]
    have hsm : (id + 1) * B = id * B + B := Nat.succ_mul _ _
    have key : ∀ (nb : Option Mem), V.block (id + 1) = nb →
        (∀ x, nb = some x → ∀ j, j < B → (id + 1) * B + j < st.length → x j = G st ((id + 1) * B + j)) →
        (nb = none → st.length ≤ (id + 1) * B) →
        ∃ c', (if off + (decVMem (support B junk off m nb) 5 0).2 ≥ B
          then some ((decVMem (support B junk off m nb) 5 0).1,
            (⟨id + 1, nb, off + (decVMem (support B junk off m nb) 5 0).2 - B⟩ : Cursor))
          else some ((decVMem (support B junk off m nb) 5 0).1,
            (⟨id, some m, off + (decVMem (support B junk off m nb) 5 0).2⟩ : Cursor))) = some (n, c')
          ∧ At B V c' (a + (encV n).length) := by
      intro nb hnb hx hno
      have hdec : decVMem (support B junk off m nb) 5 0 = (n, 0 + (encV n).length) := by
        apply decVMem_encV _ _ _ _ _ (by omega)
        intro i hi
        have hpi := hp i hi
        simp only [Nat.zero_add, support]
        by_cases hio : i < B - off
        · rw [if_pos hio, hmb (off + i) (by omega) (by omega), ← hpi]
          congr 1; omega
        · rw [if_neg hio]
          cases nb with
          | none => have := hno rfl; omega
          | some x =>
            simp only [Option.elim]
            rw [hx x rfl (i - (B - off)) (by omega) (by omega), ← hpi]
            congr 1; omega
      rw [hdec]
      simp only [Nat.zero_add]
      by_cases hge : off + (encV n).length ≥ B
      · rw [if_pos hge]
        exact ⟨_, rfl, ⟨by simp only; omega, by simp only; omega, hnb.symm⟩⟩
      · rw [if_neg hge]
        exact ⟨_, rfl, ⟨by simp only; omega, by simp only; omega, hm.symm⟩⟩
    by_cases hlast : id + 1 < V.n
    · obtain ⟨x, hx, hxb⟩ := h.block (id + 1) hlast
      rw [if_pos hlast]
      have := key (some x) hx (by rintro y ⟨⟩; exact hxb) (by intro e; cases e)
      rw [hx]
      simpa using this
    · rw [if_neg hlast]
      have hc := h.cover
      have hle : V.n * B ≤ (id + 1) * B := Nat.mul_le_mul_right _ (by omega)
      have := key none (h.out _ (by omega)) (by rintro y ⟨⟩) (by intro; omega)
      simpa using this
  · rw [if_neg hr]
    have hdec : decVMem m 5 off = (n, off + (encV n).length) := by
      apply decVMem_encV _ _ _ _ _ (by omega)
      intro i hi
      rw [hmb (off + i) (by omega) (by omega), ← hp i hi]
      congr 1; omega
    rw [hdec]
    exact ⟨_, rfl, ⟨by simp only; omega, by simp only; omega, hm.symm⟩⟩

theorem getFlag_spec {B : Nat} (hB : 4 ≤ B) {V : View} {st : List UInt8} (h : Sees B V st) {c : Cursor} {a : Nat} (hc : At B V c a) (hl : a < st.length) :
    ∃ c', getFlag B V c = some (G st a, c') ∧ At B V c' (a + 1) := by
  obtain ⟨id, blk, off⟩ := c
  obtain ⟨h1, h2, h3⟩ := hc
  simp only at h1 h2 h3
  unfold getFlag
  simp only
  by_cases ho : off < B
  · rw [if_pos ho]
    obtain ⟨m, hm, hmb⟩ := h.block id (h.lt (i := id) (a := a) (by omega) (by omega))
    rw [hm] at h3
    subst h3
    refine ⟨⟨id, some m, off + 1⟩, ?_, ⟨by simp only; omega, ho, hm.symm⟩⟩
    simp only [Option.bind_eq_bind, Option.bind_some]
    rw [hmb off ho (by omega), h1]
  · rw [if_neg ho]
    have hsm : (id + 1) * B = id * B + B := Nat.succ_mul _ _
    obtain ⟨m, hm, hmb⟩ := h.block (id + 1) (h.lt (i := id + 1) (a := a) (by omega) (by omega))
    refine ⟨⟨id + 1, some m, 1⟩, ?_, ⟨by simp only; omega, by simp only; omega, hm.symm⟩⟩
    rw [hm]
    simp only [Option.bind_eq_bind, Option.bind_some]
    rw [hmb 0 (by omega) (by omega)]
    congr 3; omega

theorem copy_spec {B : Nat} {m : Mem} {st : List UInt8} {id start : Nat} {bs : List UInt8}
    (hm : ∀ j, j < B → id * B + j < st.length → m j = G st (id * B + j)) (hp : Placed (G st) (id * B + start) bs)
    (hl : id * B + start + bs.length ≤ st.length) (hs : start + bs.length ≤ B) : copy B m start bs.length = some bs := by
  unfold copy
  rw [if_pos hs]
  congr 1
  apply List.ext_getElem
  · simp
  · intro i h1 h2
    rw [List.getElem_map, List.getElem_range, hm (start + i) (by omega) (by omega), ← hp i h2, Nat.add_assoc]

theorem getTail_spec {B : Nat} (hB : 4 ≤ B) {V : View} {st : List UInt8} (h : Sees B V st) {c : Cursor} {a : Nat} (hc : At B V c a) {t : List UInt8}
    (hp : Placed (G st) a t) (hl : a + t.length ≤ st.length) (hn : a + t.length < V.n * B) (ht : t.length ≤ B) : getTail B V c t.length = some t := by
  -- the cursor after moving on from the end of a block
  have hmove : ∃ c' m, (if c.off = B then (V.block (c.id + 1)).map (fun b => Cursor.mk (c.id + 1) (some b) 0) else some c) = some c' ∧ At B V c' a ∧ c'.off < B ∧
      c'.id < V.n ∧ V.block c'.id = some m := by
    obtain ⟨id, blk, off⟩ := c
    obtain ⟨h1, h2, h3⟩ := hc
    simp only at h1 h2 h3
    simp only
    have hsm : (id + 1) * B = id * B + B := Nat.succ_mul _ _
    by_cases ho : off = B
    · have hid : id + 1 < V.n := Nat.lt_of_mul_lt_mul_right (a := B) (by omega)
      obtain ⟨m, hm, -⟩ := h.block (id + 1) hid
      rw [if_pos ho, hm]
      exact ⟨_, m, rfl, ⟨by simp only; omega, by simp only; omega, hm.symm⟩, by simp only; omega, hid, hm⟩
    · have hid : id < V.n := Nat.lt_of_mul_lt_mul_right (a := B) (by omega)
      obtain ⟨m, hm, -⟩ := h.block id hid
      rw [if_neg ho]
      exact ⟨_, m, rfl, ⟨h1, h2, h3⟩, by simp only; omega, hid, hm⟩
  unfold getTail
  obtain ⟨c', m, e, hc', ho, hid, hm⟩ := hmove
  rw [e]
  simp only [Option.bind_eq_bind, Option.bind_some]
  rw [hc'.blk, hm]
  simp only [Option.bind_some]
  obtain ⟨id, blk, off⟩ := c'
  obtain ⟨h1, h2, -⟩ := hc'
  simp only at h1 h2 ho hid hm ⊢
  obtain ⟨m', hm', hmb⟩ := h.block id hid
  rw [hm] at hm'
  cases hm'
  have hsm : (id + 1) * B = id * B + B := Nat.succ_mul _ _
  by_cases hov : off + t.length > B
  · rw [if_pos hov]
    have hid1 : id + 1 < V.n := Nat.lt_of_mul_lt_mul_right (a := B) (by omega)
    obtain ⟨m2, hm2, hmb2⟩ := h.block (id + 1) hid1
    have hsplit : t = t.take (B - off) ++ t.drop (B - off) := (List.take_append_drop _ _).symm
    rw [hsplit, placed_append] at hp
    have hl1 : (t.take (B - off)).length = B - off := by rw [List.length_take]; omega
    have hl2 : (t.drop (B - off)).length = t.length - (B - off) := List.length_drop
    have c1 := copy_spec (start := off) hmb (by rw [h1]; exact hp.1) (by omega) (by omega)
    have hp2 : Placed (G st) ((id + 1) * B + 0) (t.drop (B - off)) := by
      have e : (id + 1) * B + 0 = a + (t.take (B - off)).length := by omega
      rw [e]; exact hp.2
    have c2 := copy_spec (start := 0) hmb2 (bs := t.drop (B - off)) hp2 (by omega) (by omega)
    rw [hl1] at c1
    rw [hl2] at c2
    rw [c1, hm2]
    simp only [Option.bind_some, c2]
    rw [← hsplit]
  · rw [if_neg hov]
    exact copy_spec hmb (by rw [h1]; exact hp) (by omega) (by omega)

/-- The end of an entry. -/
theorem get_spec {B : Nat} (hB : 4 ≤ B) {junk : Mem} {V : View} {st : List UInt8} (h : Sees B V st) {pos : Nat} {s : List UInt8}
    (he : Entry B st pos s) (hs : s.length ≤ B) (hs2 : s.length < 2 ^ 28) (hn : st.length < V.n * B ∨ ∃ st' x, st = st' ++ x ∧ x ≠ [] ∧ Entry B st' pos s) :
    V.get B junk pos = some s := by
  have hdm := Nat.div_add_mod pos B
  rw [Nat.mul_comm] at hdm
  have hml : pos % B < B := Nat.mod_lt _ (by omega)
  have hcov := h.cover
  have hpos := encV_length_pos s.length
  have start : pos < st.length → ∃ m, V.block (pos / B) = some m ∧ (∀ j, j < B → pos / B * B + j < st.length → m j = G st (pos / B * B + j)) ∧
      At B V ⟨pos / B, some m, pos - pos / B * B⟩ pos := by
    intro hlt
    obtain ⟨m, hm, hmb⟩ := h.block (pos / B) (h.lt (i := pos / B) (a := pos) (by omega) hlt)
    exact ⟨m, hm, hmb, ⟨by simp only; omega, by simp only; omega, hm.symm⟩⟩
  -- the bytes of the entry do not reach the end of the last block
  have main : ∀ st0, Entry B st0 pos s → st0.length < V.n * B → (∃ x, st = st0 ++ x) → V.get B junk pos = some s := by
    rintro st0 he0 hlt ⟨x, hx⟩
    have hle : st0.length ≤ st.length := by rw [hx]; simp
    rcases he0 with ⟨hp0, hl⟩ | ⟨q, k, h1, h2, h3, h4, h5, h6, h7⟩
    · have hp := placed_G_mono (x := x) hp0 (by simp; omega)
      rw [← hx, placed_append, placed_cons] at hp
      obtain ⟨hp1, hp2, hp3⟩ := hp
      obtain ⟨m, hm, hmb, hat⟩ := start (by omega)
      obtain ⟨c1, e1, a1⟩ := getVInt_spec hB (junk := junk) h hat hp1 (by omega) hs2
      obtain ⟨c2, e2, a2⟩ := getFlag_spec hB h a1 (by omega)
      have e3 := getTail_spec hB h a2 hp3 (by omega) (by omega) hs
      unfold View.get
      simp only [Option.bind_eq_bind, hm, Option.bind_some, e1, e2, hp2]
      rw [if_neg (by decide), e3]
    · have hp := placed_G_mono (x := x) h6 (by simp; omega)
      have hb := placed_G_mono (x := x) h5 (by rw [List.length_take]; omega)
      rw [← hx, placed_append, placed_cons, placed_append, placed_append] at hp
      rw [← hx] at hb
      obtain ⟨hp1, hp2, hp3, hp4, hp5⟩ := hp
      obtain ⟨m, hm, hmb, hat⟩ := start (by omega)
      obtain ⟨c1, e1, a1⟩ := getVInt_spec hB (junk := junk) h hat hp1 (by omega) hs2
      obtain ⟨c2, e2, a2⟩ := getFlag_spec hB h a1 (by omega)
      obtain ⟨c3, e3, a3⟩ := getVInt_spec hB (junk := junk) h a2 hp3 (by omega) h1
      obtain ⟨c4, e4, a4⟩ := getVInt_spec hB (junk := junk) h a3 hp4 (by omega) h2
      have hdl : (s.drop k).length = s.length - k := List.length_drop
      have hc := copy_spec (start := q) hmb hb (by rw [List.length_take]; omega) (by rw [List.length_take]; omega)
      rw [List.length_take, Nat.min_eq_left h3] at hc
      have e5 := getTail_spec hB h a4 hp5 (by omega) (by omega) (by omega)
      rw [hdl] at e5
      unfold View.get
      simp only [Option.bind_eq_bind, hm, Option.bind_some, e1, e2, hp2, e3, e4]
      rw [if_pos trivial]
      by_cases hid : pos / B ≠ c4.id
      · rw [if_pos hid, hc]
        simp only [Option.bind_some]
        have hidn : c4.id < V.n := by
          have := a4.pos
          exact Nat.lt_of_mul_lt_mul_right (a := B) (by omega)
        obtain ⟨m4, hm4, -⟩ := h.block c4.id hidn
        have hc4 : (⟨c4.id, some m4, c4.off⟩ : Cursor) = c4 := by
          have := a4.blk
          rw [hm4] at this
          cases c4
          simp only at this ⊢
          rw [this]
        rw [hm4]
        simp only [Option.bind_some]
        rw [hc4, e5]
        simp
      · rw [if_neg hid]
        have hid' : pos / B = c4.id := by simpa using hid
        have hb4 := a4.blk
        rw [← hid', hm] at hb4
        rw [hb4]
        simp only [Option.bind_some]
        rw [hc, e5]
        simp
  rcases hn with hn | ⟨st', x, hx, hx0, he'⟩
  · exact main st he hn ⟨[], by simp⟩
  · refine main st' he' ?_ ⟨x, hx⟩
    have : 0 < x.length := List.length_pos_iff.2 hx0
    have : st.length = st'.length + x.length := by rw [hx]; simp
    omega

/-! ## Comparing -/

/-- The byte-wise order of two strings as the sign of a number. -/
def Ordered (d : Int) (t s : List UInt8) : Prop := (d < 0 ↔ t < s) ∧ (d = 0 ↔ t = s) ∧ (0 < d ↔ s < t)

theorem Ordered.cons {d : Int} {t s : List UInt8} (h : Ordered d t s) (b : UInt8) : Ordered d (b :: t) (b :: s) := by
  unfold Ordered at *
  simp only [List.cons_lt_cons_iff, UInt8.lt_irrefl, false_or, true_and, List.cons.injEq]
  exact h

theorem Ordered.append {d : Int} {t s : List UInt8} (h : Ordered d t s) (p : List UInt8) : Ordered d (p ++ t) (p ++ s) := by
  induction p with
  | nil => exact h
  | cons b p ih => exact ih.cons b

theorem ordered_diff {a b : UInt8} (h : a ≠ b) (t s : List UInt8) : Ordered ((a.toNat : Int) - b.toNat) (a :: t) (b :: s) := by
  have hne : a.toNat ≠ b.toNat := fun e => h (UInt8.toNat_inj.1 e)
  unfold Ordered
  simp only [List.cons_lt_cons_iff, UInt8.lt_iff_toNat_lt, List.cons.injEq, h, Ne.symm h, false_and, or_false, iff_false]
  refine ⟨by omega, by omega, by omega⟩

theorem ordered_nil_left (s : List UInt8) : Ordered (-(s.length : Int)) [] s := by
  unfold Ordered
  cases s with
  | nil => simp
  | cons b s => simp; omega

theorem ordered_nil_right (t : List UInt8) {d : Int} (h : 0 < d) (ht : t ≠ []) : Ordered d t [] := by
  unfold Ordered
  cases t with
  | nil => exact absurd rfl ht
  | cons b s => simp; omega

theorem prefixEquals_spec : ∀ (p t s : List UInt8), (prefixEquals p s = 0 → ∃ r, s = p ++ r) ∧ (prefixEquals p s ≠ 0 → Ordered (prefixEquals p s) (p ++ t) s)
  | [], t, s => by simp [prefixEquals]
  | a :: p, t, [] => by
    simp only [prefixEquals]
    exact ⟨by omega, fun _ => ordered_nil_right _ (by omega) (by simp)⟩
  | a :: p, t, b :: s => by
    simp only [prefixEquals]
    by_cases h : a = b
    · subst h
      rw [if_pos rfl]
      obtain ⟨h1, h2⟩ := prefixEquals_spec p t s
      refine ⟨fun h => ?_, fun h => (h2 h).cons a⟩
      obtain ⟨r, hr⟩ := h1 h
      exact ⟨r, by rw [hr]; rfl⟩
    · rw [if_neg h]
      have hne : a.toNat ≠ b.toNat := fun e => h (UInt8.toNat_inj.1 e)
      exact ⟨by omega, fun _ => ordered_diff h _ _⟩

/-- One loop over the bytes `t` of the block. -/
theorem cmpLoop_spec (m : Mem) (s : List UInt8) : ∀ (t : List UInt8) (a j : Nat), j ≤ s.length → Placed m a t →
    (∃ d, cmpLoop m s t.length a j = .inl d ∧ ∀ u, Ordered d (t ++ u) (s.drop j)) ∨
    (cmpLoop m s t.length a j = .inr (j + t.length) ∧ ∃ r, s.drop j = t ++ r) ∨
    (cmpLoop m s t.length a j = .inr s.length ∧ s.length < j + t.length ∧ ∃ t', t' ≠ [] ∧ t = s.drop j ++ t')
  | [], a, j, hj, hp => by
    refine .inr (.inl ⟨rfl, s.drop j, rfl⟩)
  | b :: t, a, j, hj, hp => by
    rw [placed_cons] at hp
    simp only [List.length_cons, cmpLoop]
    by_cases h : j < s.length
    · rw [dif_pos h]
      have hd : s.drop j = s[j] :: s.drop (j + 1) := List.drop_eq_getElem_cons h
      by_cases hne : m a ≠ s[j]
      · rw [if_pos hne]
        rw [hp.1] at hne ⊢
        refine .inl ⟨_, rfl, fun u => ?_⟩
        rw [hd]
        exact ordered_diff hne _ _
      · rw [if_neg hne]
        have heq : b = s[j] := by rw [← hp.1]; simpa using hne
        rcases cmpLoop_spec m s t (a + 1) (j + 1) h hp.2 with ⟨d, h1, h2⟩ | ⟨h1, r, h2⟩ | ⟨h1, h2, t', h3, h4⟩
        · refine .inl ⟨d, h1, fun u => ?_⟩
          rw [hd, ← heq]
          exact (h2 u).cons b
        · refine .inr (.inl ⟨by rw [h1]; congr 1; omega, r, ?_⟩)
          rw [hd, ← heq, h2]; rfl
        · refine .inr (.inr ⟨h1, by omega, t', h3, ?_⟩)
          rw [hd, ← heq, List.cons_append, ← h4]
    · rw [dif_neg h]
      have hjs : j = s.length := by omega
      subst hjs
      exact .inr (.inr ⟨rfl, by omega, b :: t, by simp, by simp⟩)

theorem cmpTail_spec {B : Nat} (_hB : 4 ≤ B) {V : View} {st : List UInt8} (h : Sees B V st) {c : Cursor} {a : Nat} (hc : At B V c a) {t : List UInt8}
    (hp : Placed (G st) a t) (hl : a + t.length ≤ st.length) (ht : t.length ≤ B) (s : List UInt8) :
    ∃ d, cmpTail B V c t.length s = some d ∧ Ordered d t s := by
  obtain ⟨id, blk, off⟩ := c
  obtain ⟨h1, h2, h3⟩ := hc
  simp only at h1 h2 h3
  have hsm : (id + 1) * B = id * B + B := Nat.succ_mul _ _
  unfold cmpTail
  simp only
  by_cases ho : off + t.length ≤ B
  · rw [if_pos ho]
    by_cases h0 : t.length = 0
    · rw [if_pos h0]
      have : t = [] := List.length_eq_zero_iff.1 h0
      subst this
      refine ⟨_, rfl, ?_⟩
      have := ordered_nil_left s
      simpa using this
    · rw [if_neg h0]
      obtain ⟨m, hm, hmb⟩ := h.block id (h.lt (i := id) (a := a) (by omega) (by omega))
      rw [hm] at h3
      subst h3
      simp only [Option.bind_eq_bind, Option.bind_some]
      have hpm : Placed m off t := by
        intro i hi
        rw [hmb (off + i) (by omega) (by omega), ← hp i hi]
        congr 1; omega
      rcases cmpLoop_spec m s t off 0 (by omega) hpm with ⟨d, e1, e2⟩ | ⟨e1, r, e2⟩ | ⟨e1, e2, t', e3, e4⟩
      · rw [e1]
        refine ⟨d, rfl, ?_⟩
        have := e2 []
        simpa using this
      · rw [e1]
        refine ⟨_, rfl, ?_⟩
        simp only [List.drop_zero] at e2
        subst e2
        have := (ordered_nil_left r).append t
        simp only [List.append_nil] at this
        have e : ((t.length : Int) - (t ++ r).length) = -(r.length : Int) := by simp; omega
        rw [e]; exact this
      · rw [e1]
        refine ⟨_, rfl, ?_⟩
        simp only [List.drop_zero] at e4
        have := (ordered_nil_right t' (d := (t.length : Int) - s.length) (by omega) e3).append s
        rw [← e4] at this
        simpa using this
  · rw [if_neg ho]
    have hid1 : id + 1 < V.n := h.lt (i := id + 1) (a := a + t.length - 1) (by omega) (by omega)
    obtain ⟨m, hm, hmb⟩ := h.block id (by omega)
    obtain ⟨m2, hm2, hmb2⟩ := h.block (id + 1) hid1
    rw [hm] at h3
    subst h3
    simp only [Option.bind_eq_bind, Option.bind_some]
    have hsplit : t = t.take (B - off) ++ t.drop (B - off) := (List.take_append_drop _ _).symm
    have hp' := hp
    rw [hsplit, placed_append] at hp'
    have hl1 : (t.take (B - off)).length = B - off := by rw [List.length_take]; omega
    have hl2 : (t.drop (B - off)).length = t.length - (B - off) := List.length_drop
    have hpm : Placed m off (t.take (B - off)) := by
      intro i hi
      rw [hmb (off + i) (by omega) (by omega), ← hp'.1 i hi]
      congr 1; omega
    have hpm2 : Placed m2 0 (t.drop (B - off)) := by
      intro i hi
      rw [hmb2 (0 + i) (by omega) (by omega), ← hp'.2 i hi]
      congr 1; omega
    have L1 := cmpLoop_spec m s _ off 0 (by omega) hpm
    rw [hl1] at L1
    rcases L1 with ⟨d, e1, e2⟩ | ⟨e1, r, e2⟩ | ⟨e1, e2, t', e3, e4⟩
    · rw [e1]
      refine ⟨d, rfl, ?_⟩
      have := e2 (t.drop (B - off))
      rw [← hsplit] at this
      simpa using this
    · rw [e1]
      simp only [List.drop_zero] at e2
      simp only [hm2, Option.bind_some]
      have hjs : 0 + (B - off) ≤ s.length := by rw [e2]; simp; omega
      have hdr : s.drop (0 + (B - off)) = r := by
        rw [e2, Nat.zero_add, List.drop_append_of_le_length (by omega), List.drop_of_length_le (by omega)]
        rfl
      have fin : ∀ {d}, Ordered d (t.drop (B - off)) r → Ordered d t s := by
        intro d hd
        have := hd.append (t.take (B - off))
        rw [← hsplit, ← e2] at this
        exact this
      have L2 := cmpLoop_spec m2 s _ 0 (0 + (B - off)) hjs hpm2
      rw [hl2] at L2
      rw [hdr] at L2
      have hsl : s.length = B - off + r.length := by rw [e2, List.length_append, hl1]
      rcases L2 with ⟨d, f1, f2⟩ | ⟨f1, r', f2⟩ | ⟨f1, f2, t', f3, f4⟩
      · rw [f1]
        refine ⟨d, rfl, fin ?_⟩
        have := f2 []
        simpa using this
      · rw [f1]
        refine ⟨_, rfl, fin ?_⟩
        have hrl : r.length = t.length - (B - off) + r'.length := by rw [f2, List.length_append, hl2]
        have := (ordered_nil_left r').append (t.drop (B - off))
        rw [List.append_nil, ← f2] at this
        have e : (((t.length - (B - off) : Nat) : Int) - s.length + (0 + (B - off) : Nat)) = -(r'.length : Int) := by omega
        rw [e]; exact this
      · rw [f1]
        refine ⟨_, rfl, fin ?_⟩
        have htl : t.length - (B - off) = r.length + t'.length := by rw [← hl2, f4, List.length_append]
        have := (ordered_nil_right t' (d := ((t.length - (B - off) : Nat) : Int) - s.length + (0 + (B - off) : Nat))
          (by have := List.length_pos_iff.2 f3; omega) f3).append r
        rw [← f4] at this
        simpa using this
    · -- the argument ends first
      rw [e1]
      simp only [hm2, Option.bind_some]
      have h0 : ∀ n x, cmpLoop m2 s n x s.length = .inr s.length := by
        intro n x
        cases n with
        | zero => rfl
        | succ n => simp [cmpLoop]
      rw [h0]
      refine ⟨_, rfl, ?_⟩
      simp only [List.drop_zero] at e4
      have := (ordered_nil_right (t' ++ t.drop (B - off)) (d := ((t.length - (B - off) : Nat) : Int) - s.length + s.length) (by omega) (by simp [e3])).append s
      rw [← List.append_assoc, ← e4, ← hsplit] at this
      simpa using this

theorem cmp_spec {B : Nat} (hB : 4 ≤ B) {junk : Mem} {V : View} {st : List UInt8} (h : Sees B V st) {pos : Nat} {t : List UInt8}
    (he : Entry B st pos t) (hs : t.length ≤ B) (hs2 : t.length < 2 ^ 28) (s : List UInt8) : ∃ d, V.cmp B junk pos s = some d ∧ Ordered d t s := by
  have hdm := Nat.div_add_mod pos B
  rw [Nat.mul_comm] at hdm
  have hml : pos % B < B := Nat.mod_lt _ (by omega)
  have hpos := encV_length_pos t.length
  have start : pos < st.length → ∃ m, V.block (pos / B) = some m ∧ (∀ j, j < B → pos / B * B + j < st.length → m j = G st (pos / B * B + j)) ∧
      At B V ⟨pos / B, some m, pos % B⟩ pos := by
    intro hlt
    obtain ⟨m, hm, hmb⟩ := h.block (pos / B) (h.lt (i := pos / B) (a := pos) (by omega) hlt)
    exact ⟨m, hm, hmb, ⟨by simp only; omega, by simp only; omega, hm.symm⟩⟩
  rcases he with ⟨hp, hl⟩ | ⟨q, k, h1, h2, h3, h4, h5, h6, h7⟩
  · rw [placed_append, placed_cons] at hp
    obtain ⟨hp1, hp2, hp3⟩ := hp
    obtain ⟨m, hm, hmb, hat⟩ := start (by omega)
    obtain ⟨c1, e1, a1⟩ := getVInt_spec hB (junk := junk) h hat hp1 (by omega) hs2
    obtain ⟨c2, e2, a2⟩ := getFlag_spec hB h a1 (by omega)
    obtain ⟨d, e3, o⟩ := cmpTail_spec hB h a2 hp3 (by omega) hs s
    refine ⟨d, ?_, o⟩
    unfold View.cmp
    simp only [Option.bind_eq_bind, hm, Option.bind_some, e1, e2, hp2]
    rw [if_neg (by decide), e3]
  · rw [placed_append, placed_cons, placed_append, placed_append] at h6
    obtain ⟨hp1, hp2, hp3, hp4, hp5⟩ := h6
    obtain ⟨m, hm, hmb, hat⟩ := start (by omega)
    obtain ⟨c1, e1, a1⟩ := getVInt_spec hB (junk := junk) h hat hp1 (by omega) hs2
    obtain ⟨c2, e2, a2⟩ := getFlag_spec hB h a1 (by omega)
    obtain ⟨c3, e3, a3⟩ := getVInt_spec hB (junk := junk) h a2 hp3 (by omega) h1
    obtain ⟨c4, e4, a4⟩ := getVInt_spec hB (junk := junk) h a3 hp4 (by omega) h2
    have hdl : (t.drop k).length = t.length - k := List.length_drop
    have hc := copy_spec (start := q) hmb h5 (by rw [List.length_take]; omega) (by rw [List.length_take]; omega)
    rw [List.length_take, Nat.min_eq_left h3] at hc
    obtain ⟨hz, hnz⟩ := prefixEquals_spec (t.take k) (t.drop k) s
    rw [List.take_append_drop] at hnz
    obtain ⟨d, e5, o⟩ := cmpTail_spec hB h a4 hp5 (by omega) (by omega) (s.drop k)
    rw [hdl] at e5
    have hbase : (if pos / B ≠ c4.id then some m else c4.blk) = some m := by
      by_cases hid : pos / B ≠ c4.id
      · rw [if_pos hid]
      · rw [if_neg hid]
        have hid' : pos / B = c4.id := by simpa using hid
        rw [a4.blk, ← hid', hm]
    by_cases hpe : prefixEquals (t.take k) s = 0
    · refine ⟨d, ?_, ?_⟩
      · unfold View.cmp
        simp only [Option.bind_eq_bind, hm, Option.bind_some, e1, e2, hp2, e3, e4]
        rw [if_pos trivial, hbase]
        simp only [Option.bind_some]
        rw [hc]
        simp only [Option.bind_some]
        rw [if_neg (by simpa using hpe), e5]
      · obtain ⟨r, hr⟩ := hz hpe
        have hk : (t.take k).length = k := by rw [List.length_take]; omega
        have hdr : s.drop k = r := by
          rw [hr, List.drop_append_of_le_length (by omega), List.drop_of_length_le (by omega)]
          rfl
        rw [hdr] at o
        have := o.append (t.take k)
        rw [List.take_append_drop, ← hr] at this
        exact this
    · refine ⟨_, ?_, hnz hpe⟩
      unfold View.cmp
      simp only [Option.bind_eq_bind, hm, Option.bind_some, e1, e2, hp2, e3, e4]
      rw [if_pos trivial, hbase]
      simp only [Option.bind_some]
      rw [hc]
      simp only [Option.bind_some]
      rw [if_pos hpe]

/-! ## The views -/

theorem getElem_blocks {B : Nat} {l : List (List UInt8)} {x : List UInt8} (h : ∀ b ∈ l, b.length = B) {i j : Nat} (hi : i < l.length) (hj : j < B) :
    (l.flatten ++ x)[i * B + j]? = (l[i])[j]? := by
  induction l generalizing i with
  | nil => simp at hi
  | cons b l ih =>
    have hb : b.length = B := h b (by simp)
    cases i with
    | zero =>
      rw [List.flatten_cons, List.append_assoc, List.getElem?_append_left (by omega)]
      simp
    | succ i =>
      have := ih (fun y hy => h y (by simp [hy])) (i := i) (by simpa using hi)
      rw [List.flatten_cons, List.append_assoc, Nat.succ_mul, List.getElem?_append_right (by omega)]
      rw [show i * B + B + j - b.length = i * B + j by omega, this]
      simp

/-- The bytes of each block are where the stream has them. -/
theorem blocks_see {B : Nat} {p : Pool} (h : Ok B p) {junk : Mem} {i : Nat} (hi : i < p.done.length + 1) :
    ∃ b, (p.done ++ [p.cur])[i]? = some b ∧ (∀ j, j < B → i * B + j < p.stream.length → blockMem junk b j = G p.stream (i * B + j)) ∧ b.length ≤ B ∧
      (i = p.done.length → b = p.cur) := by
  by_cases hlt : i < p.done.length
  · refine ⟨p.done[i], by rw [List.getElem?_append_left hlt, List.getElem?_eq_getElem hlt], ?_, by rw [h.full _ (List.getElem_mem hlt)]; exact Nat.le_refl _, fun e => by omega⟩
    intro j hj hl
    have hb := h.full _ (List.getElem_mem hlt)
    unfold blockMem
    rw [if_pos (by omega)]
    unfold G Pool.stream
    rw [List.getD, List.getD, getElem_blocks h.full hlt hj]
  · have : i = p.done.length := by omega
    subst this
    refine ⟨p.cur, by simp, ?_, h.le, fun _ => rfl⟩
    intro j hj hl
    rw [h.length] at hl
    unfold blockMem
    rw [if_pos (by omega)]
    unfold G Pool.stream
    rw [List.getD, List.getD, ← flatten_length h.full, List.getElem?_append_right (by omega)]
    congr 2; omega

theorem view_sees {B : Nat} {p : Pool} (h : Ok B p) (junk : Mem) : Sees B (p.view junk) p.stream := by
  have hl := h.length
  have hle := h.le
  have hsm : (p.done.length + 1) * B = p.done.length * B + B := Nat.succ_mul _ _
  refine ⟨by show _ ≤ (p.done.length + 1) * B; omega, ?_, ?_⟩
  · intro i hi
    obtain ⟨b, hb, hs, -⟩ := blocks_see h (junk := junk) hi
    exact ⟨blockMem junk b, by simp [Pool.view, hb], hs⟩
  · intro i hi
    have hi : p.done.length + 1 ≤ i := hi
    simp only [Pool.view, Option.map_eq_none_iff, List.getElem?_eq_none_iff]
    simp; omega

theorem close_sees {B : Nat} {p : Pool} (h : Inv B p) (hm : p.total % B ≠ 0) (junk : Mem) : Sees B ((p.close B).view B junk) p.stream := by
  have hl := h.ok.length
  have hle := h.ok.le
  have hB : 0 < B := by
    rcases Nat.eq_zero_or_pos B with e | e
    · subst e
      rw [h.tot, hl] at hm
      simp at hm
      simp [hm] at hle
    · exact e
  have hcl : p.cur.length < B := by
    rcases Nat.lt_or_eq_of_le hle with h' | h'
    · exact h'
    · rw [h.tot, hl, h', Nat.mul_comm, Nat.mul_add_mod] at hm
      simp at hm
  have hmod : p.total % B = p.cur.length := by
    rw [h.tot, hl, Nat.mul_comm, Nat.mul_add_mod, Nat.mod_eq_of_lt hcl]
  have hf : p.close B = ⟨p.total, p.done ++ [p.cur]⟩ := by
    unfold Pool.close
    rw [if_pos (by omega)]
  have hsm : (p.done.length + 1) * B = p.done.length * B + B := Nat.succ_mul _ _
  rw [hf]
  refine ⟨?_, ?_, ?_⟩
  · show _ ≤ (p.done ++ [p.cur]).length * B
    rw [List.length_append, List.length_singleton]; omega
  · intro i hi
    have hi : i < (p.done ++ [p.cur]).length := hi
    rw [List.length_append, List.length_singleton] at hi
    obtain ⟨b, hb, hs, hbl, hbc⟩ := blocks_see h.ok (junk := junk) hi
    refine ⟨blockMem junk b, ?_, hs⟩
    simp only [Files.view, hb]
    rw [if_pos]
    rw [List.length_append, List.length_singleton, hmod]
    split
    · rw [hbc (by omega)]; exact Nat.le_refl _
    · exact hbl
  · intro i hi
    have hi : (p.done ++ [p.cur]).length ≤ i := hi
    simp only [Files.view]
    rw [List.getElem?_eq_none hi]

end Trident.SPool
