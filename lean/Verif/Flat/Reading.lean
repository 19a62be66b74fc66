import Verif.Flat.Proofs
/-! Helper proofs for the flat tree: the other permutations, and reading (no property statements here). -/
namespace Trident.Flat
open Load

/-- A block from the 13 bytes of its permutations. -/
def blk (K : Kind) (S : Nat → Nat → List UInt8) (k : Nat) : List UInt8 := encLE 5 k ++ K.perms.flatMap (S k)

theorem flatMap_len13 {l : List Nat} {f : Nat → List UInt8} (h : ∀ p ∈ l, (f p).length = 13) : (l.flatMap f).length = 13 * l.length := by
  induction l with
  | nil => rfl
  | cons a l ih =>
    rw [List.flatMap_cons, List.length_append, h a (by simp), ih fun p hp => h p (by simp [hp]), List.length_cons]
    omega

theorem blk_length {K : Kind} {S : Nat → Nat → List UInt8} {k : Nat} (h : ∀ p ∈ K.perms, (S k p).length = 13) : (blk K S k).length = K.size := by
  unfold blk Kind.size
  rw [List.length_append, encLE_length, flatMap_len13 h]

theorem seg_length {F : Nat → List UInt8} {n : Nat} {a b : Nat} (h : ∀ k, a ≤ k → k < b → (F k).length = n) : (seg F a b).length = (b - a) * n := by
  unfold seg
  have : ∀ m, m ≤ b - a → ((List.range m).flatMap fun i => F (a + i)).length = m * n := by
    intro m
    induction m with
    | zero => intro _; simp
    | succ m ih =>
      intro hm
      rw [List.range_succ, List.flatMap_append, List.length_append, ih (by omega), Nat.succ_mul]
      simp only [List.flatMap_cons, List.flatMap_nil, List.append_nil]
      rw [h _ (by omega) (by omega)]
  exact this _ (Nat.le_refl _)

theorem perms_nodup (K : Kind) : K.perms.Nodup := by cases K <;> decide

/-- The bytes of strategy, file and position. -/
def tailOf (e : Entry) : List UInt8 := [UInt8.ofNat e.strat] ++ encLE 2 e.file ++ encLE 5 e.pos

theorem tailOf_length (e : Entry) : (tailOf e).length = 8 := by simp [tailOf, encLE_length]

theorem overwrite_mid (L M R bs : List UInt8) (h : bs.length = M.length) : overwrite (L ++ (M ++ R)) L.length bs = some (L ++ bs ++ R) := by
  unfold overwrite
  rw [if_pos (by simp; omega), List.take_left, h, ← List.drop_drop, List.drop_left, List.drop_left]

section
variable {K : Kind} {A B : List Nat} {p N : Nat}

/-- The file around the 13 bytes of a permutation of a term. -/
theorem around {S : Nat → Nat → List UInt8} (hp : K.perms = A ++ p :: B) (hS : ∀ k q, (S k q).length = 13) {k : Nat} (hk : k < N) :
    ∃ L R, seg (blk K S) 0 N = L ++ (S k p ++ R) ∧ L.length = k * K.size + (5 + 13 * A.length) ∧ L = seg (blk K S) 0 k ++ (encLE 5 k ++ A.flatMap (S k)) ∧
      R = B.flatMap (S k) ++ seg (blk K S) (k + 1) N := by
  refine ⟨seg (blk K S) 0 k ++ (encLE 5 k ++ A.flatMap (S k)), B.flatMap (S k) ++ seg (blk K S) (k + 1) N, ?_, ?_, rfl, rfl⟩
  · rw [← seg_append _ (Nat.zero_le k) (Nat.le_of_lt hk), ← seg_append _ (Nat.le_succ k) hk, seg_one]
    conv => lhs; rw [show blk K S k = encLE 5 k ++ K.perms.flatMap (S k) from rfl, hp, List.flatMap_append, List.flatMap_cons]
    simp only [List.append_assoc]
  · rw [List.length_append, seg_length (n := K.size) fun j _ _ => blk_length fun q _ => hS j q, List.length_append, encLE_length,
      flatMap_len13 fun q _ => hS k q, Nat.sub_zero]

/-- Strategy, file and position of one permutation of one term are set. -/
def setTail (S : Nat → Nat → List UInt8) (p : Nat) (e : Entry) (k q : Nat) : List UInt8 := if k = e.key ∧ q = p then (S k q).take 5 ++ tailOf e else S k q

theorem setTail_length {S : Nat → Nat → List UInt8} (hS : ∀ k q, (S k q).length = 13) (e : Entry) (k q : Nat) : (setTail S p e k q).length = 13 := by
  unfold setTail
  by_cases h : k = e.key ∧ q = p
  · rw [if_pos h, List.length_append, List.length_take, hS, tailOf_length]
    rfl
  · rw [if_neg h, hS]

theorem patch_spec {S : Nat → Nat → List UInt8} (hp : K.perms = A ++ p :: B) (hS : ∀ k q, (S k q).length = 13) {e : Entry} (he : e.key < N) :
    patch K (offsetOf A.length) (seg (blk K S) 0 N) e = some (seg (blk K (setTail S p e)) 0 N) := by
  have hnd := perms_nodup K
  rw [hp, List.nodup_append] at hnd
  obtain ⟨hA, hB, hAB⟩ := hnd
  rw [List.nodup_cons] at hB
  obtain ⟨L, R, h1, h2, h3, h4⟩ := around hp hS he
  obtain ⟨L', R', h1', h2', h3', h4'⟩ := around hp (setTail_length (p := p) hS e) he
  have eL : L' = L := by
    rw [h3, h3']
    congr 1
    · refine seg_congr fun k _ hk => ?_
      unfold blk
      congr 1
      refine flatMap_ext fun q _ => ?_
      rw [setTail, if_neg (by omega)]
    · congr 1
      refine flatMap_ext fun q hq => ?_
      rw [setTail, if_neg]
      rintro ⟨-, rfl⟩
      exact hAB q hq q (by simp) rfl
  have eR : R' = R := by
    rw [h4, h4']
    congr 1
    · refine flatMap_ext fun q hq => ?_
      rw [setTail, if_neg]
      rintro ⟨-, rfl⟩
      exact hB.1 hq
    · refine seg_congr fun k hk _ => ?_
      unfold blk
      congr 1
      refine flatMap_ext fun q _ => ?_
      rw [setTail, if_neg (by omega)]
  have es : setTail S p e e.key p = (S e.key p).take 5 ++ tailOf e := by rw [setTail, if_pos ⟨rfl, rfl⟩]
  have hsplit : S e.key p = (S e.key p).take 5 ++ (S e.key p).drop 5 := (List.take_append_drop 5 _).symm
  have := overwrite_mid (L ++ (S e.key p).take 5) ((S e.key p).drop 5) R (tailOf e) (by rw [tailOf_length, List.length_drop, hS])
  unfold patch
  show overwrite _ _ (tailOf e) = _
  rw [h1', eL, eR, es, h1]
  have hl : (L ++ (S e.key p).take 5).length = e.key * K.size + offsetOf A.length := by
    rw [List.length_append, h2, List.length_take, hS]
    unfold offsetOf
    omega
  rw [hl] at this
  conv at this => lhs; rw [List.append_assoc, ← List.append_assoc ((S e.key p).take 5), ← hsplit]
  rw [this]
  simp only [List.append_assoc]

/-- All entries of a permutation. -/
theorem patches_spec (hp : K.perms = A ++ p :: B) : ∀ {es : List Entry} {S : Nat → Nat → List UInt8}, (∀ k q, (S k q).length = 13) →
    (∀ e ∈ es, e.key < N) → (es.map (·.key)).Pairwise (· < ·) →
    ∃ S', es.foldlM (patch K (offsetOf A.length)) (seg (blk K S) 0 N) = some (seg (blk K S') 0 N) ∧ (∀ k q, (S' k q).length = 13) ∧
      (∀ k q, q ≠ p → S' k q = S k q) ∧ (∀ k q, (S' k q).take 5 = (S k q).take 5) ∧
      (∀ k, k ∉ es.map (·.key) → S' k p = S k p) ∧ ∀ e ∈ es, S' e.key p = (S e.key p).take 5 ++ tailOf e := by
  intro es
  induction es with
  | nil => intro S hS _ _; exact ⟨S, rfl, hS, fun _ _ _ => rfl, fun _ _ => rfl, fun _ _ => rfl, by simp⟩
  | cons e es ih =>
    intro S hS he hs
    rw [List.map_cons, List.pairwise_cons] at hs
    obtain ⟨S', h1, h2, h3, h4, h5, h6⟩ := ih (setTail_length (p := p) hS e) (fun x hx => he x (by simp [hx])) hs.2
    have htake : ∀ k q, (setTail S p e k q).take 5 = (S k q).take 5 := by
      intro k q
      unfold setTail
      by_cases h : k = e.key ∧ q = p
      · rw [if_pos h, List.take_left' (by rw [List.length_take, hS]; rfl)]
      · rw [if_neg h]
    refine ⟨S', ?_, h2, ?_, ?_, ?_, ?_⟩
    · rw [List.foldlM_cons, patch_spec hp hS (he e (by simp))]
      exact h1
    · intro k q hq
      rw [h3 k q hq, setTail, if_neg (by rintro ⟨-, h⟩; exact hq h)]
    · intro k q
      rw [h4, htake]
    · intro k hk
      rw [List.map_cons, List.mem_cons, not_or] at hk
      rw [h5 k hk.2, setTail, if_neg (by rintro ⟨h, -⟩; exact hk.1 h)]
    · intro x hx
      rcases List.mem_cons.1 hx with rfl | hx
      · rw [h5 x.key (fun hc => by have := hs.1 _ hc; omega), setTail, if_pos ⟨rfl, rfl⟩]
      · rw [h6 x hx, htake]

end

/-! ## Reading -/

theorem rd_mid (L M R : List UInt8) : rd (L ++ (M ++ R)) L.length M.length = some M := by
  unfold rd
  rw [if_pos (by simp), List.drop_left, List.take_left]

/-- What the 13 bytes say. -/
def cooOf (b : List UInt8) : Option Coo :=
  if 0 < decLE (b.take 5) then some ⟨decLE (b.take 5), (b.getD 5 0).toNat, decLE ((b.drop 6).take 2), decLE ((b.drop 8).take 5)⟩ else none

theorem readSlot_spec {L b R : List UInt8} (hb : b.length = 13) (hR : 0 < decLE (b.take 5) → 3 ≤ R.length) : readSlot (L ++ (b ++ R)) L.length = some (cooOf b) := by
  have hlen : (L ++ (b ++ R)).length = L.length + 13 + R.length := by simp [hb]; omega
  have hd : ∀ i, i ≤ 13 → (L ++ (b ++ R)).drop (L.length + i) = b.drop i ++ R := by
    intro i hi
    rw [← List.drop_drop, List.drop_left, List.drop_append_of_le_length (by omega)]
  have r8 : rd (L ++ (b ++ R)) L.length 8 = some (b.take 8) := by
    unfold rd
    have := hd 0 (by omega)
    simp only [Nat.add_zero, List.drop_zero] at this
    rw [if_pos (by omega), this, List.take_append_of_le_length (by omega)]
  unfold readSlot cooOf
  rw [r8]
  simp only [Option.bind_some, List.take_take]
  rw [show min 5 8 = 5 from rfl]
  by_cases hn : 0 < decLE (b.take 5)
  · rw [if_pos hn, if_pos hn]
    have h3 := hR hn
    have r6 : rd (L ++ (b ++ R)) (L.length + 6) 2 = some ((b.drop 6).take 2) := by
      unfold rd
      rw [if_pos (by omega), hd 6 (by omega), List.take_append_of_le_length (by simp; omega)]
    have r5 : rd (L ++ (b ++ R)) (L.length + 5) 1 = some ((b.drop 5).take 1) := by
      unfold rd
      rw [if_pos (by omega), hd 5 (by omega), List.take_append_of_le_length (by simp; omega)]
    have rp : rd (L ++ (b ++ R)) (L.length + 8) 8 = some ((b.drop 8 ++ R).take 8) := by
      unfold rd
      rw [if_pos (by omega), hd 8 (by omega)]
    rw [r6, rp, r5]
    simp only [Option.bind_some, Option.map_some, List.take_take]
    rw [show min 5 8 = 5 from rfl, List.take_append_of_le_length (by simp; omega)]
    have : ((b.drop 5).take 1).getD 0 0 = b.getD 5 0 := by
      simp [List.getD_eq_getElem?_getD]
    rw [this]
  · rw [if_neg hn, if_neg hn]

theorem mapM_all {α β : Type} {f : α → Option β} {g : α → β} : ∀ {l : List α}, (∀ x ∈ l, f x = some (g x)) → l.mapM f = some (l.map g)
  | [], _ => rfl
  | a :: l, h => by
    rw [List.mapM_cons, h a (by simp), mapM_all fun x hx => h x (by simp [hx])]
    rfl

/-- How many bytes are mapped after the end of the file. -/
def room (len : Nat) : Nat := (4096 - len % 4096) % 4096

/-- Which permutation is read without leaving the mapped memory: all but the last one of the last term. -/
def Safe (K : Kind) (S : Nat → Nat → List UInt8) (N k : Nat) : Prop :=
  k + 1 < N ∨ 3 ≤ room (N * K.size) ∨ ∀ p, p ∈ K.perms.getLast? → cooOf (S k p) = none

theorem zipIdx_split {l : List Nat} {x : Nat × Nat} (h : x ∈ l.zipIdx) : ∃ A B, l = A ++ x.1 :: B ∧ A.length = x.2 := by
  obtain ⟨p, i⟩ := x
  have := List.mem_zipIdx_iff_getElem?.1 h
  simp only at this ⊢
  obtain ⟨hi, he⟩ := List.getElem?_eq_some_iff.1 this
  refine ⟨l.take i, l.drop (i + 1), ?_, by simp; omega⟩
  rw [← he, List.getElem_cons_drop, List.take_append_drop]

theorem lookup_map {α : Type} {l : List Nat} (f : Nat → Option α) (p : Nat) : ((l.map fun q => (q, f q)).lookup p).join = if p ∈ l then f p else none := by
  induction l with
  | nil => simp
  | cons a l ih =>
    rw [List.map_cons, List.lookup_cons]
    by_cases h : p = a
    · subst h
      simp
    · have : (p == a) = false := by simpa using h
      simp only [this]
      rw [ih]
      simp [h]

theorem readBlock_spec {K : Kind} {S : Nat → Nat → List UInt8} (hS : ∀ k q, (S k q).length = 13) {N k : Nat} (hk : k < N) (hs : Safe K S N k) :
    ∃ l, readBlock K (pages (seg (blk K S) 0 N)) (k * K.size) = some l ∧ ∀ p, (l.lookup p).join = if p ∈ K.perms then cooOf (S k p) else none := by
  refine ⟨K.perms.map fun p => (p, cooOf (S k p)), ?_, fun p => lookup_map _ p⟩
  have e : (K.perms.map fun p => (p, cooOf (S k p))) = K.perms.zipIdx.map fun x => (x.1, cooOf (S k x.1)) := by
    cases K <;> rfl
  rw [e]
  unfold readBlock
  refine mapM_all fun x hx => ?_
  obtain ⟨A, B, h1, h2⟩ := zipIdx_split hx
  obtain ⟨L, R, g1, g2, -, g4⟩ := around h1 hS hk
  rw [Option.map_eq_some_iff]
  refine ⟨cooOf (S k x.1), ?_, rfl⟩
  have hlen : (seg (blk K S) 0 N).length = N * K.size := by
    rw [seg_length (n := K.size) fun j _ _ => blk_length fun q _ => hS j q, Nat.sub_zero]
  unfold pages
  rw [hlen, g1, ← h2, ← g2, List.append_assoc, List.append_assoc]
  refine readSlot_spec (hS k x.1) fun hn => ?_
  rw [List.length_append, List.length_replicate]
  rcases hs with hs | hs | hs
  · have : K.size ≤ R.length := by
      rw [g4, List.length_append, seg_length (n := K.size) fun j _ _ => blk_length fun q _ => hS j q]
      have : 1 * K.size ≤ (N - (k + 1)) * K.size := Nat.mul_le_mul_right _ (by omega)
      omega
    have : 3 ≤ K.size := by unfold Kind.size; omega
    omega
  · unfold room at hs
    omega
  · cases B with
    | nil =>
      have := hs x.1 (by rw [h1]; simp)
      unfold cooOf at this
      rw [if_pos hn] at this
      simp at this
    | cons q B =>
      have : 13 ≤ R.length := by
        rw [g4, List.length_append, flatMap_len13 fun q _ => hS k q, List.length_cons]
        omega
      omega

/-- The term at which the file ends is not read at all. -/
theorem iterate_spec {K : Kind} {S : Nat → Nat → List UInt8} (hS : ∀ k q, (S k q).length = 13) {N : Nat} (hs : ∀ k, k < N → Safe K S N k) :
    ∀ n k, n + k = N → ∀ fuel, n ≤ fuel → iterate K (seg (blk K S) 0 N) fuel (k * K.size) k =
      some ((List.range n).map fun i => (k + i, fun p => if p ∈ K.perms then cooOf (S (k + i) p) else none)) := by
  have hlen : (seg (blk K S) 0 N).length = N * K.size := by
    rw [seg_length (n := K.size) fun j _ _ => blk_length fun q _ => hS j q, Nat.sub_zero]
  have hpos : 0 < K.size := by unfold Kind.size; omega
  intro n
  induction n with
  | zero =>
    intro k hk fuel _
    have : k = N := by omega
    cases fuel with
    | zero => rfl
    | succ f => rw [iterate, if_neg (by rw [hlen, this]; omega)]; rfl
  | succ n ih =>
    intro k hk fuel hf
    cases fuel with
    | zero => omega
    | succ f =>
      have hlt : k < N := by omega
      obtain ⟨l, h1, h2⟩ := readBlock_spec hS hlt (hs k hlt)
      have hb : k * K.size < (seg (blk K S) 0 N).length := by
        rw [hlen]
        exact Nat.mul_lt_mul_of_pos_right hlt hpos
      rw [iterate, if_pos hb, h1, Option.bind_some]
      have := ih (k + 1) (by omega) f (by omega)
      rw [Nat.add_mul, Nat.one_mul] at this
      rw [this, Option.map_some, List.range_succ_eq_map, List.map_cons, List.map_map]
      congr 2
      · exact Prod.ext rfl (funext h2)
      · refine List.map_congr_left fun i _ => ?_
        simp only [Function.comp_apply, Nat.succ_eq_add_one]
        rw [show k + 1 + i = k + (i + 1) by omega]

end Trident.Flat
