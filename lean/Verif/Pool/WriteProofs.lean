import Verif.Pool.Model
/-! # The string pool: what is written -/
namespace Trident.SPool

/-- All bytes written. -/
def Pool.stream (p : Pool) : List UInt8 := p.done.flatten ++ p.cur

/-- A list of bytes as a memory. -/
def G (st : List UInt8) : Mem := fun a => st.getD a 0

theorem G_append {st x : List UInt8} {a : Nat} (h : a < st.length) : G (st ++ x) a = G st a := by
  simp [G, List.getD, List.getElem?_append_left h]

theorem placed_G_mono {st x bs : List UInt8} {a : Nat} (h : Placed (G st) a bs) (hl : a + bs.length ≤ st.length) : Placed (G (st ++ x)) a bs := by
  intro i hi
  rw [G_append (by omega)]
  exact h i hi

theorem placed_G_end (st bs : List UInt8) : Placed (G (st ++ bs)) st.length bs := by
  intro i hi
  simp [G, List.getD, hi]

theorem placed_G_take {st : List UInt8} {a : Nat} {bs : List UInt8} (h : (st.drop a).take bs.length = bs) : Placed (G st) a bs := by
  intro i hi
  have : ((st.drop a).take bs.length)[i]? = bs[i]? := by rw [h]
  rw [List.getElem?_take, if_pos hi, List.getElem?_drop, List.getElem?_eq_getElem hi] at this
  simp [G, List.getD, this]

theorem encV_length_le4 {n : Nat} (h : n < 2 ^ 28) : (encV n).length ≤ 4 := by
  have e : ∀ k n, 0 < k → n < 128 ^ k → (encV n).length ≤ k := by
    intro k
    induction k with
    | zero => intro n h; omega
    | succ k ih =>
      intro n _ hn
      unfold encV
      split
      · simp
      · rename_i h'
        rw [List.length_cons]
        have : 0 < k := by
          rcases Nat.eq_zero_or_pos k with rfl | h
          · simp at hn; omega
          · exact h
        have := ih (n / 128) this (by rw [Nat.pow_succ] at hn; omega)
        omega
  exact e 4 n (by omega) (by omega)

structure Ok (B : Nat) (p : Pool) : Prop where
  full : ∀ b ∈ p.done, b.length = B
  le : p.cur.length ≤ B

theorem flatten_length {B : Nat} {l : List (List UInt8)} (h : ∀ b ∈ l, b.length = B) : l.flatten.length = l.length * B := by
  induction l with
  | nil => simp
  | cons b l ih =>
    rw [List.flatten_cons, List.length_append, h b (by simp), ih (fun x hx => h x (by simp [hx])), List.length_cons, Nat.succ_mul]
    omega

theorem Ok.length {B : Nat} {p : Pool} (h : Ok B p) : p.stream.length = p.done.length * B + p.cur.length := by
  unfold Pool.stream
  rw [List.length_append, flatten_length h.full]

theorem compressLast_spec {B : Nat} {p : Pool} (h : Ok B p) (hc : p.cur.length = B) :
    Ok B p.compressLast ∧ p.compressLast.stream = p.stream := by
  refine ⟨⟨?_, Nat.zero_le _⟩, ?_⟩
  · intro b hb
    rcases List.mem_append.1 hb with hb | hb
    · exact h.full b hb
    · rw [List.mem_singleton.1 hb]; exact hc
  · simp [Pool.compressLast, Pool.stream]

theorem writeVInt_spec {B : Nat} (hB : 4 ≤ B) {p : Pool} (h : Ok B p) {n : Nat} (hn : n < 2 ^ 28) :
    Ok B (p.writeVInt B n) ∧ (p.writeVInt B n).stream = p.stream ++ encV n ∧ (p.writeVInt B n).total = p.total + (encV n).length ∧
    (p.writeVInt B n).posBase = p.posBase ∧
    ((p.writeVInt B n).sizeBase = 0 ∨ ((p.writeVInt B n).done = p.done ∧ (p.writeVInt B n).cur = p.cur ++ encV n ∧ (p.writeVInt B n).sizeBase = p.sizeBase)) := by
  have hl := encV_length_le4 hn
  have hle := h.le
  have same : p.cur.length + (encV n).length ≤ B →
      Ok B { p with cur := p.cur ++ encV n, total := p.total + (encV n).length } ∧ Pool.stream { p with cur := p.cur ++ encV n, total := p.total + (encV n).length } = p.stream ++ encV n := by
    intro hr
    exact ⟨⟨h.full, by rw [List.length_append]; exact hr⟩, by simp [Pool.stream]⟩
  unfold Pool.writeVInt
  simp only
  by_cases h1 : B - p.cur.length < 4
  · rw [if_pos h1]
    by_cases h2 : B - p.cur.length < (encV n).length
    · rw [if_pos h2]
      obtain ⟨a, b⟩ := compressLast_spec (p := { p with cur := p.cur ++ (encV n).take (B - p.cur.length), total := p.total + (B - p.cur.length) }) (B := B)
        ⟨h.full, by simp; omega⟩ (by simp; omega)
      refine ⟨⟨a.full, by simp [Pool.compressLast]; omega⟩, ?_, by simp [Pool.compressLast]; omega, rfl, .inl rfl⟩
      simp [Pool.compressLast, Pool.stream]
    · rw [if_neg h2]
      obtain ⟨a, b⟩ := same (by omega)
      exact ⟨a, b, rfl, rfl, .inr ⟨rfl, rfl, rfl⟩⟩
  · rw [if_neg h1]
    obtain ⟨a, b⟩ := same (by omega)
    exact ⟨a, b, rfl, rfl, .inr ⟨rfl, rfl, rfl⟩⟩

theorem commonPrefix_spec : ∀ a b, (commonPrefix a b ≤ a.length ∧ commonPrefix a b ≤ b.length) ∧ a.take (commonPrefix a b) = b.take (commonPrefix a b)
  | [], b => by simp [commonPrefix]
  | _ :: _, [] => by simp [commonPrefix]
  | x :: a, y :: b => by
    unfold commonPrefix
    obtain ⟨⟨h1, h2⟩, h3⟩ := commonPrefix_spec a b
    by_cases h : x = y
    · subst h
      simp [h3]
      omega
    · simp [h]

/-- A string stored at a position: either in full or with a prefix taken from the same block. -/
def Entry (B : Nat) (st : List UInt8) (pos : Nat) (s : List UInt8) : Prop :=
  (Placed (G st) pos (encV s.length ++ 0 :: s) ∧ pos + ((encV s.length).length + 1 + s.length) ≤ st.length) ∨
  ∃ q k, q < 2 ^ 28 ∧ k < 2 ^ 28 ∧ k ≤ s.length ∧ q + k ≤ pos % B ∧ Placed (G st) (pos / B * B + q) (s.take k) ∧
    Placed (G st) pos (encV s.length ++ 1 :: (encV q ++ (encV k ++ s.drop k))) ∧
    pos + ((encV s.length).length + 1 + (encV q).length + (encV k).length + (s.length - k)) ≤ st.length

theorem Entry.mono {B : Nat} {st : List UInt8} {pos : Nat} {s : List UInt8} (h : Entry B st pos s) (x : List UInt8) : Entry B (st ++ x) pos s := by
  rcases h with ⟨h, hl⟩ | ⟨q, k, h1, h2, h3, h4, h5, h6, h7⟩
  · exact .inl ⟨placed_G_mono h (by simp; omega), by simp; omega⟩
  · refine .inr ⟨q, k, h1, h2, h3, h4, placed_G_mono h5 ?_, placed_G_mono h6 (by simp; omega), by simp; omega⟩
    have := Nat.div_add_mod pos B
    rw [Nat.mul_comm] at this
    rw [List.length_take]
    omega

/-- What holds between two additions. -/
structure Inv (B : Nat) (p : Pool) : Prop where
  ok : Ok B p
  base : p.sizeBase = 0 ∨ p.posBase + p.sizeBase ≤ p.cur.length
  tot : p.total = p.stream.length

theorem empty_inv (B : Nat) : Inv B Pool.empty := ⟨⟨by simp [Pool.empty], Nat.zero_le _⟩, .inl rfl, rfl⟩

theorem body_spec {B : Nat} {p : Pool} (h : Ok B p) {t : List UInt8} (ht : t.length ≤ B) (hb : p.sizeBase = 0 ∨ p.posBase + p.sizeBase ≤ p.cur.length + t.length)
    (htot : p.total + 1 = p.stream.length) : Inv B (p.body B t) ∧ (p.body B t).stream = p.stream ++ t := by
  have hle := h.le
  unfold Pool.body
  simp only
  by_cases h1 : B - p.cur.length ≥ t.length
  · rw [if_pos h1]
    refine ⟨⟨⟨h.full, by simp; omega⟩, ?_, ?_⟩, by simp [Pool.stream]⟩
    · simpa using hb
    · simp [Pool.stream] at htot ⊢; omega
  · rw [if_neg h1]
    obtain ⟨a, b⟩ := compressLast_spec (p := { p with cur := p.cur ++ t.take (B - p.cur.length), total := p.total + (B - p.cur.length) }) (B := B)
      ⟨h.full, by simp; omega⟩ (by simp; omega)
    have e : ∀ n, Pool.stream { Pool.compressLast { p with cur := p.cur ++ t.take (B - p.cur.length), total := p.total + (B - p.cur.length) } with cur := t.drop (B - p.cur.length), total := n }
        = p.stream ++ t := by
      intro n
      simp [Pool.compressLast, Pool.stream]
    refine ⟨⟨⟨a.full, by simp; omega⟩, .inl rfl, ?_⟩, e _⟩
    rw [e]
    simp [Pool.compressLast]
    omega

theorem header_spec {B : Nat} (hB : 4 ≤ B) (hB2 : B ≤ 2 ^ 28) {p : Pool} (h : Inv B p) {s : List UInt8} (hs : s.length ≤ B) (hs2 : s.length < 2 ^ 28) :
    ∃ enc, Ok B (p.header B s).1 ∧ (p.header B s).1.stream = p.stream ++ enc ∧ (p.header B s).1.total + 1 = (p.header B s).1.stream.length ∧
      (p.header B s).2.length ≤ s.length ∧
      ((p.header B s).1.sizeBase = 0 ∨ (p.header B s).1.posBase + (p.header B s).1.sizeBase ≤ (p.header B s).1.cur.length + (p.header B s).2.length) ∧
      Entry B (p.stream ++ (enc ++ (p.header B s).2)) p.total s := by
  obtain ⟨ok, base, tot⟩ := h
  obtain ⟨w1, w2, w3, w4, w5⟩ := writeVInt_spec hB ok hs2
  -- the state before the flag
  have hq : ∃ q, (if B - (p.writeVInt B s.length).cur.length = 0 then (p.writeVInt B s.length).compressLast else p.writeVInt B s.length) = q ∧
      Ok B q ∧ q.stream = p.stream ++ encV s.length ∧ q.total = p.total + (encV s.length).length ∧ q.posBase = p.posBase ∧ q.cur.length < B ∧
      (q.sizeBase = 0 ∨ (q.done = p.done ∧ q.cur = p.cur ++ encV s.length ∧ q.sizeBase = p.sizeBase)) := by
    refine ⟨_, rfl, ?_⟩
    have := w1.le
    by_cases hr : B - (p.writeVInt B s.length).cur.length = 0
    · rw [if_pos hr]
      obtain ⟨a, b⟩ := compressLast_spec w1 (by omega)
      exact ⟨a, b.trans w2, w3, w4, by show 0 < B; omega, .inl rfl⟩
    · rw [if_neg hr]
      exact ⟨w1, w2, w3, w4, by omega, w5⟩
  obtain ⟨q, hq, q1, q2, q3, q4, q5, q6⟩ := hq
  unfold Pool.header
  simp only [hq]
  by_cases hk : q.prefixSize p.cur s = 0
  · rw [if_pos hk]
    refine ⟨encV s.length ++ [0], ⟨q1.full, by simp; omega⟩, ?_, ?_, Nat.le_refl _, .inr (by simp), ?_⟩
    · simp only [Pool.stream] at q2 ⊢
      rw [← List.append_assoc, q2, List.append_assoc]
    · simp only [Pool.stream] at q2 ⊢
      rw [← List.append_assoc, q2, q3, tot]
      simp [Pool.stream]; omega
    · refine .inl ⟨?_, ?_⟩
      · have := placed_G_end p.stream (encV s.length ++ 0 :: s)
        rw [tot]
        simpa using this
      · rw [tot]; simp; omega
  · rw [if_neg hk]
    -- there is a base entry in this block
    have hk' : 0 < q.prefixSize p.cur s := Nat.pos_of_ne_zero hk
    obtain ⟨hc1, hc2⟩ : q.prefixSize p.cur s = commonPrefix ((p.cur.drop q.posBase).take q.sizeBase) s ∧ True := by
      unfold Pool.prefixSize at hk' ⊢
      simp only at hk' ⊢
      split
      · rename_i h1
        rw [if_pos h1] at hk'
        split
        · exact ⟨rfl, trivial⟩
        · rename_i h2
          rw [if_neg h2] at hk'
          omega
      · rename_i h1
        rw [if_neg h1] at hk'
        omega
    obtain ⟨⟨c1, c2⟩, c3⟩ := commonPrefix_spec ((p.cur.drop q.posBase).take q.sizeBase) s
    rw [← hc1] at c1 c2 c3
    generalize hkk : q.prefixSize p.cur s = k at *
    have hsz : q.sizeBase ≠ 0 := by
      intro e
      rw [e] at c1
      simp at c1
      omega
    obtain ⟨d1, d2, d3⟩ := q6.resolve_left hsz
    have hbase : p.posBase + p.sizeBase ≤ p.cur.length := base.resolve_left (by omega)
    rw [d3, q4] at c1 c3
    have hkl : k ≤ p.sizeBase := by simp at c1; omega
    have hcur : p.cur.length < B := by
      rw [d2] at q5
      simp at q5
      omega
    have hpl := ok.length
    have hdiv : p.total / B = p.done.length := by
      rw [tot, hpl, Nat.mul_comm, Nat.mul_add_div (by omega), Nat.div_eq_of_lt hcur]
      omega
    have hmod : p.total % B = p.cur.length := by
      rw [tot, hpl, Nat.mul_comm, Nat.mul_add_mod, Nat.mod_eq_of_lt hcur]
    have v0 : Ok B { q with cur := q.cur ++ [1] } := ⟨q1.full, by simp; omega⟩
    obtain ⟨v1, v2, v3, -, v5⟩ := writeVInt_spec hB v0 (n := q.posBase) (by omega)
    obtain ⟨u1, u2, u3, -, u5⟩ := writeVInt_spec hB v1 (n := k) (by omega)
    have hst : (({ q with cur := q.cur ++ [1] }.writeVInt B q.posBase).writeVInt B k).stream = p.stream ++ (encV s.length ++ 1 :: (encV p.posBase ++ encV k)) := by
      rw [u2, v2]
      simp only [Pool.stream] at q2 ⊢
      rw [← List.append_assoc, q2, q4]
      simp
    have hte : (({ q with cur := q.cur ++ [1] }.writeVInt B q.posBase).writeVInt B k).total = p.total + (encV s.length).length + (encV p.posBase).length + (encV k).length := by
      rw [u3, v3]
      show q.total + _ + _ = _
      rw [q3, q4]
    have hpos : ∀ {x : Pool}, x = ({ q with cur := q.cur ++ [1] }.writeVInt B q.posBase).writeVInt B k → x.sizeBase = 0 ∨ (x.posBase + x.sizeBase ≤ x.cur.length) := by
      rintro x rfl
      rcases u5 with u5 | ⟨-, u5, u6⟩
      · exact .inl u5
      · rcases v5 with v5 | ⟨-, v5, v6⟩
        · exact .inl (u6.trans v5)
        · right
          have e1 := (writeVInt_spec hB v0 (n := q.posBase) (by omega)).2.2.2.1
          have e2 := (writeVInt_spec hB v1 (n := k) (by omega)).2.2.2.1
          rw [u5, u6, v5, v6, e2, e1]
          simp only [q4, d2, d3]
          simp
          omega
    refine ⟨encV s.length ++ 1 :: (encV p.posBase ++ encV k), ⟨u1.full, u1.le⟩, hst, ?_, by simp, ?_, ?_⟩
    · show Pool.total (Pool.writeVInt _ _ _) + 1 = (Pool.stream (Pool.writeVInt _ _ _)).length
      rw [hst, hte, tot]
      simp
      omega
    · rcases hpos rfl with h | h
      · exact .inl h
      · exact .inr (Nat.le_trans h (Nat.le_add_right _ _))
    · refine .inr ⟨p.posBase, k, by omega, by omega, c2, by omega, ?_, ?_, ?_⟩
      · have : Placed (G p.stream) (p.done.length * B + p.posBase) (s.take k) := by
          apply placed_G_take
          rw [List.length_take, Nat.min_eq_left c2, ← c3]
          unfold Pool.stream
          have e : (p.done.flatten ++ p.cur).drop (p.done.length * B + p.posBase) = p.cur.drop p.posBase := by
            rw [← flatten_length ok.full, List.drop_length_add_append]
          rw [e, List.take_take, Nat.min_eq_left hkl]
        rw [hdiv]
        exact placed_G_mono this (by rw [List.length_take, Nat.min_eq_left c2, hpl]; omega)
      · have := placed_G_end p.stream (encV s.length ++ 1 :: (encV p.posBase ++ (encV k ++ s.drop k)))
        rw [tot]
        simpa using this
      · rw [tot]
        simp
        omega

theorem append_spec {B : Nat} (hB : 4 ≤ B) (hB2 : B ≤ 2 ^ 28) {p : Pool} (h : Inv B p) {s : List UInt8} (hs : s.length ≤ B) (hs2 : s.length < 2 ^ 28) :
    Inv B (p.append B s) ∧ Entry B (p.append B s).stream p.total s ∧ ∃ x, x ≠ [] ∧ (p.append B s).stream = p.stream ++ x := by
  obtain ⟨enc, a, b, c, d, e, f⟩ := header_spec hB hB2 h hs hs2
  obtain ⟨i, j⟩ := body_spec a (t := (p.header B s).2) (by omega) e c
  have ht : (p.append B s).stream = p.stream ++ (enc ++ (p.header B s).2) := by
    unfold Pool.append
    simp only
    rw [j, b, List.append_assoc]
  refine ⟨i, by rw [ht]; exact f, _, ?_, ht⟩
  intro e0
  rw [e0] at f
  have := encV_length_pos s.length
  rcases f with ⟨-, f⟩ | ⟨_, _, _, _, _, _, _, _, f⟩
  · rw [h.tot] at f; simp at f; omega
  · rw [h.tot] at f; simp at f; omega

end Trident.SPool
