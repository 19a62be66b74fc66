import Verif.Flat.Reading
/-! Helper proofs for the flat tree: the whole file (no property statements here). -/
namespace Trident.Flat
open Load

theorem lookup_mem {items : List Item} (hs : (items.map (·.1)).Pairwise (· < ·)) {x : Item} (hx : x ∈ items) : items.lookup x.1 = some x.2 := by
  induction items with
  | nil => simp at hx
  | cons y items ih =>
    rw [List.map_cons, List.pairwise_cons] at hs
    rw [List.lookup_cons]
    rcases List.mem_cons.1 hx with rfl | hx
    · simp
    · have := hs.1 x.1 (List.mem_map.2 ⟨x, hx, rfl⟩)
      have hne : (x.1 == y.1) = false := by simp; omega
      simp only [hne]
      exact ih hs.2 hx

theorem lookup_none {items : List Item} {k : Nat} (h : k ∉ items.map (·.1)) : items.lookup k = none := by
  induction items with
  | nil => rfl
  | cons y items ih =>
    rw [List.map_cons, List.mem_cons, not_or] at h
    rw [List.lookup_cons]
    have hne : (k == y.1) = false := by simpa using h.1
    simp only [hne]
    exact ih h.2

theorem mem_of_lookup {items : List Item} {k : Nat} {cs} (h : items.lookup k = some cs) : (k, cs) ∈ items := by
  induction items with
  | nil => simp at h
  | cons y items ih =>
    obtain ⟨a, b⟩ := y
    rw [List.lookup_cons] at h
    by_cases hk : k = a
    · subst hk
      simp at h
      simp [h]
    · have : (k == a) = false := by simpa using hk
      simp only [this] at h
      simp [ih h]

/-- What is known of directories and tree: `E p` are the entries of permutation `p`. -/
structure Input (K : Kind) (junk : Nat → Nat → List UInt8) (dirs : Nat → Dir) (items : List Item) (E : Nat → List Entry) : Prop where
  junk : ∀ k p, (junk k p).length = 8
  entries : ∀ p ∈ K.perms, entries K (dirs p) = some (E p)
  sop : dirs 3 ≠ []
  sorted : (items.map (·.1)).Pairwise (· < ·)
  esorted : ∀ p ∈ K.perms, ((E p).map (·.key)).Pairwise (· < ·)
  sub : ∀ p ∈ K.perms, ∀ e ∈ E p, e.key ∈ items.map (·.1)
  ex : ∀ p ∈ K.perms, ∀ x ∈ items, (x.2 p).isSome = true ↔ x.1 ∈ (E p).map (·.key)
  used : ∀ x ∈ items, ∃ p ∈ K.perms, (x.2 p).isSome = true
  osp : K ≠ .labeled → ∀ x ∈ items, x.2 3 = none → (x.2 4).isSome = true
  count : ∀ x ∈ items, ∀ p ∈ K.perms, ∀ t, x.2 p = some t → 0 < t.n ∧ t.n < 2 ^ 40
  fits : ∀ p ∈ K.perms, ∀ e ∈ E p, e.strat < 256 ∧ e.file < 2 ^ 16 ∧ e.pos < 2 ^ 40

section
variable {K : Kind} {junk : Nat → Nat → List UInt8} {dirs : Nat → Dir} {items : List Item} {E : Nat → List Entry}

/-- The entry of SOP for a term. -/
def entOf (es : List Entry) (k : Nat) : Entry := (es.find? fun e => e.key = k).getD ⟨k, 0, 0, 0⟩

theorem entOf_mem {es : List Entry} (hs : (es.map (·.key)).Pairwise (· < ·)) {e : Entry} (he : e ∈ es) : entOf es e.key = e := by
  unfold entOf
  induction es with
  | nil => simp at he
  | cons y es ih =>
    rw [List.map_cons, List.pairwise_cons] at hs
    rcases List.mem_cons.1 he with rfl | he
    · simp
    · have := hs.1 e.key (List.mem_map.2 ⟨e, he, rfl⟩)
      rw [List.find?_cons_of_neg (by simp; omega)]
      exact ih hs.2 he

/-- The 13 bytes of a permutation after `writeFirstPerm`. -/
def firstSlot (junk : Nat → Nat → List UInt8) (items : List Item) (es : List Entry) (k p : Nat) : List UInt8 :=
  (items.lookup k).elim (List.replicate 13 0) fun cs =>
    if p = 3 then slot (junk k p) (count cs 3) (entOf es k).strat (entOf es k).file (entOf es k).pos else slot (junk k p) (count cs p) 0 0 0

theorem slot_length {junk : List UInt8} (h : junk.length = 8) (n s f p : Nat) : (slot junk n s f p).length = 13 := by
  unfold slot
  split
  · simp [encLE_length]
  · simp [h]

theorem firstSlot_length (h : ∀ k p, (junk k p).length = 8) (es : List Entry) (k p : Nat) : (firstSlot junk items es k p).length = 13 := by
  unfold firstSlot
  cases items.lookup k with
  | none => simp
  | some cs =>
    simp only [Option.elim_some]
    split
    · exact slot_length (h _ _) _ _ _ _
    · exact slot_length (h _ _) _ _ _ _

theorem sop_mem (K : Kind) : 3 ∈ K.perms := by cases K <;> decide

theorem Input.left (h : Input K junk dirs items E) : Left K junk (blk K (firstSlot junk items (E 3))) (entOf (E 3)) (E 3) items 0 where
  sorted := h.sorted
  ge _ _ := Nat.zero_le _
  es_sorted := h.esorted 3 (sop_mem K)
  sub := h.sub 3 (sop_mem K)
  sop := h.ex 3 (sop_mem K)
  some x hx := by
    obtain ⟨p, hp, hs⟩ := h.used x hx
    refine ⟨p, hp, ?_⟩
    unfold Flat.count
    cases hc : x.2 p with
    | none => rw [hc] at hs; simp at hs
    | some t =>
      have := (h.count x hx p hp t hc).1
      simp only [Option.elim_some]
      omega
  osp := h.osp
  hole k _ hk := by
    unfold blk blank firstSlot
    rw [lookup_none hk]
    congr 1
    simp only [Option.elim_none]
    cases K <;> rfl
  full x hx := by
    unfold blk block
    congr 1
    refine flatMap_ext fun p _ => ?_
    unfold firstSlot
    rw [lookup_mem h.sorted hx]
    rfl
  ent e he := entOf_mem (h.esorted 3 (sop_mem K)) he

theorem Input.first (h : Input K junk dirs items E) : writeFirst K junk (dirs 3) items = some (seg (blk K (firstSlot junk items (E 3))) 0 (top items 0)) := by
  unfold writeFirst
  rw [if_neg h.sop, h.entries 3 (sop_mem K), Option.bind_some]
  exact first_spec h.left

theorem Input.key_lt (h : Input K junk dirs items E) {x : Item} (hx : x ∈ items) : x.1 < top items 0 := by
  unfold top
  cases hl : items.getLast? with
  | none => rw [List.getLast?_eq_none_iff] at hl; subst hl; simp at hx
  | some y =>
    obtain ⟨init, hi⟩ := List.getLast?_eq_some_iff.1 hl
    have hs := h.sorted
    rw [hi, List.map_append, List.pairwise_append] at hs
    rw [hi] at hx
    simp only [Option.elim_some]
    rcases List.mem_append.1 hx with hx | hx
    · have := hs.2.2 x.1 (List.mem_map.2 ⟨x, hx, rfl⟩) y.1 (by simp)
      omega
    · rw [List.mem_singleton] at hx
      rw [hx]
      omega

/-- The other permutations. -/
theorem Input.others (h : Input K junk dirs items E) : ∀ {ps : List (Nat × Nat)}, (∀ x ∈ ps, x ∈ K.perms.zipIdx) → (ps.map (·.1)).Nodup →
    ∀ {S : Nat → Nat → List UInt8}, (∀ k q, (S k q).length = 13) →
    ∃ S', ps.foldlM (fun out x => writeOther K (offsetOf x.2) (dirs x.1) out) (seg (blk K S) 0 (top items 0)) = some (seg (blk K S') 0 (top items 0)) ∧
      (∀ k q, (S' k q).length = 13) ∧ (∀ k q, q ∉ ps.map (·.1) → S' k q = S k q) ∧ (∀ k q, (S' k q).take 5 = (S k q).take 5) ∧
      ∀ q ∈ ps.map (·.1), ∀ e ∈ E q, S' e.key q = (S e.key q).take 5 ++ tailOf e := by
  intro ps
  induction ps with
  | nil => intro _ _ S hS; exact ⟨S, rfl, hS, fun _ _ _ => rfl, fun _ _ => rfl, by simp⟩
  | cons x ps ih =>
    intro hps hnd S hS
    rw [List.map_cons, List.nodup_cons] at hnd
    obtain ⟨A, B, hAB, hA⟩ := zipIdx_split (hps x (by simp))
    have hxp : x.1 ∈ K.perms := by rw [hAB]; simp
    have hlt : ∀ e ∈ E x.1, e.key < top items 0 := by
      intro e he
      obtain ⟨y, hy, hye⟩ := List.mem_map.1 (h.sub x.1 hxp e he)
      rw [← hye]
      exact h.key_lt hy
    obtain ⟨S1, a1, a2, a3, a4, a5, a6⟩ := patches_spec hAB hS hlt (h.esorted x.1 hxp)
    obtain ⟨S2, b1, b2, b3, b4, b5⟩ := ih (fun y hy => hps y (by simp [hy])) hnd.2 a2
    refine ⟨S2, ?_, b2, ?_, ?_, ?_⟩
    · rw [List.foldlM_cons]
      have : writeOther K (offsetOf x.2) (dirs x.1) (seg (blk K S) 0 (top items 0)) = some (seg (blk K S1) 0 (top items 0)) := by
        unfold writeOther
        rw [h.entries x.1 hxp, Option.bind_some, ← hA]
        exact a1
      rw [this]
      exact b1
    · intro k q hq
      rw [List.map_cons, List.mem_cons, not_or] at hq
      rw [b3 k q hq.2, a3 k q hq.1]
    · intro k q
      rw [b4, a4]
    · intro q hq e he
      rw [List.map_cons, List.mem_cons] at hq
      by_cases hqx : q = x.1
      · subst hqx
        rw [b3 _ _ hnd.1, a6 e he]
      · rcases hq with hq | hq
        · exact absurd hq hqx
        · rw [b5 q hq e he, a4]

/-- What is expected for a term and a permutation. -/
def expected (items : List Item) (E : Nat → List Entry) (k p : Nat) : Option Coo :=
  ((items.lookup k).bind fun cs => cs p).map fun t => ⟨t.n, (entOf (E p) k).strat, (entOf (E p) k).file, (entOf (E p) k).pos⟩

theorem cooOf_slot {n : Nat} {e : Entry} (hn : 0 < n) (hn' : n < 2 ^ 40) (he : e.strat < 256 ∧ e.file < 2 ^ 16 ∧ e.pos < 2 ^ 40) :
    cooOf (encLE 5 n ++ tailOf e) = some ⟨n, e.strat, e.file, e.pos⟩ := by
  obtain ⟨h1, h2, h3⟩ := he
  have t5 : (encLE 5 n ++ tailOf e).take 5 = encLE 5 n := List.take_left' (encLE_length _ _)
  have d : ∀ i, (encLE 5 n ++ tailOf e).drop (5 + i) = (tailOf e).drop i := by
    intro i
    rw [← List.drop_drop, List.drop_left' (encLE_length _ _)]
  unfold cooOf
  rw [t5, decLE_enc (by omega), if_pos hn]
  have g5 : (encLE 5 n ++ tailOf e).getD 5 0 = UInt8.ofNat e.strat := by
    rw [List.getD_eq_getElem?_getD, List.getElem?_append_right (by rw [encLE_length]; omega), encLE_length]
    rfl
  have g6 : ((encLE 5 n ++ tailOf e).drop 6).take 2 = encLE 2 e.file := by
    rw [show 6 = 5 + 1 from rfl, d 1]
    unfold tailOf
    rw [List.append_assoc, List.singleton_append, List.drop_succ_cons, List.drop_zero, List.take_left' (encLE_length _ _)]
  have g8 : ((encLE 5 n ++ tailOf e).drop 8).take 5 = encLE 5 e.pos := by
    rw [show 8 = 5 + 3 from rfl, d 3]
    unfold tailOf
    rw [List.drop_left' (by simp [encLE_length]), List.take_of_length_le (by rw [encLE_length]; omega)]
  rw [g5, g6, g8, decLE_enc (by omega), decLE_enc (by omega)]
  have : (UInt8.ofNat e.strat).toNat = e.strat := by
    rw [UInt8.toNat_ofNat']
    exact Nat.mod_eq_of_lt h1
  rw [this]

theorem cooOf_zero {b : List UInt8} (h : b.take 5 = List.replicate 5 0) : cooOf b = none := by
  unfold cooOf
  rw [h, if_neg (by decide)]

/-- The whole file. -/
theorem Input.load (h : Input K junk dirs items E) : ∃ S, loadFlat K junk dirs items = some (seg (blk K S) 0 (top items 0)) ∧ (∀ k q, (S k q).length = 13) ∧
    ∀ k, ∀ p ∈ K.perms, cooOf (S k p) = expected items E k p := by
  have h0 := firstSlot_length (junk := junk) (items := items) h.junk (E 3)
  obtain ⟨S, h1, h2, h3, h4, h5⟩ := h.others (ps := K.perms.zipIdx.drop 1) (fun x hx => List.mem_of_mem_drop hx)
    (by cases K <;> decide) h0
  refine ⟨S, ?_, h2, ?_⟩
  · unfold loadFlat
    rw [h.first, Option.bind_some]
    exact h1
  · intro k p hp
    unfold expected
    cases hl : items.lookup k with
    | none =>
      rw [Option.bind_none, Option.map_none]
      refine cooOf_zero ?_
      rw [h4]
      unfold firstSlot
      rw [hl]
      rfl
    | some cs =>
      have hx := mem_of_lookup hl
      rw [Option.bind_some]
      cases hc : cs p with
      | none =>
        rw [Option.map_none]
        refine cooOf_zero ?_
        rw [h4]
        unfold firstSlot
        rw [hl]
        simp only [Option.elim_some]
        have : Flat.count cs p = 0 := count_none hc
        by_cases hp3 : p = 3
        · rw [if_pos hp3, slot, if_neg (by rw [← hp3]; omega)]
          rfl
        · rw [if_neg hp3, slot, if_neg (by omega)]
          rfl
      | some t =>
        rw [Option.map_some]
        obtain ⟨hn, hn'⟩ := h.count (k, cs) hx p hp t hc
        obtain ⟨e, he, hek⟩ := List.mem_map.1 ((h.ex p hp (k, cs) hx).1 (by simp [hc]))
        simp only at hek
        have hee : entOf (E p) k = e := by rw [← hek]; exact entOf_mem (h.esorted p hp) he
        have hcnt : Flat.count cs p = t.n := by simp [Flat.count, hc]
        rw [hee]
        have hS : S k p = encLE 5 t.n ++ tailOf e := by
          by_cases hp3 : p = 3
          · subst hp3
            rw [h3 k 3 (by cases K <;> decide)]
            unfold firstSlot
            rw [hl]
            simp only [Option.elim_some, if_true, hee, slot, hcnt, if_pos hn]
            unfold tailOf
            simp only [List.append_assoc]
          · have hps : p ∈ (K.perms.zipIdx.drop 1).map (·.1) := by
              cases K <;> simp [Kind.perms, List.zipIdx] at hp ⊢ <;> omega
            rw [← hek, h5 p hps e he, hek]
            congr 1
            unfold firstSlot
            rw [hl]
            simp only [Option.elim_some, if_neg hp3, slot, hcnt, if_pos hn]
            rw [List.append_assoc, List.append_assoc, List.take_left' (encLE_length _ _)]
        rw [hS]
        exact cooOf_slot hn hn' (h.fits p hp e he)

/-- Reading the file: lookup and iteration. -/
theorem Input.read (h : Input K junk dirs items E) : ∃ out, loadFlat K junk dirs items = some out ∧ out.length = top items 0 * K.size ∧
    (∀ k, k < top items 0 → (k + 1 < top items 0 ∨ 3 ≤ room out.length ∨ ∀ p, p ∈ K.perms.getLast? → expected items E k p = none) →
      ∃ f, get K out k = some f ∧ ∀ p ∈ K.perms, f p = expected items E k p) ∧
    ((3 ≤ room out.length ∨ ∀ k, k + 1 = top items 0 → ∀ p, p ∈ K.perms.getLast? → expected items E k p = none) →
      ∃ l, iterate K out out.length 0 0 = some l ∧ l.map (·.1) = List.range (top items 0) ∧ ∀ x ∈ l, ∀ p ∈ K.perms, x.2 p = expected items E x.1 p) := by
  obtain ⟨S, h1, h2, h3⟩ := h.load
  have hlen : (seg (blk K S) 0 (top items 0)).length = top items 0 * K.size := by
    rw [seg_length (n := K.size) fun j _ _ => blk_length fun q _ => h2 j q, Nat.sub_zero]
  have hsafe : ∀ k, k < top items 0 → (k + 1 < top items 0 ∨ 3 ≤ room (seg (blk K S) 0 (top items 0)).length ∨
      ∀ p, p ∈ K.perms.getLast? → expected items E k p = none) → Safe K S (top items 0) k := by
    intro k hk hc
    rw [hlen] at hc
    rcases hc with hc | hc | hc
    · exact .inl hc
    · exact .inr (.inl hc)
    · refine .inr (.inr fun p hp => ?_)
      rw [h3 k p (List.mem_of_getLast? hp), hc p hp]
  refine ⟨_, h1, hlen, ?_, ?_⟩
  · intro k hk hc
    obtain ⟨l, a, b⟩ := readBlock_spec h2 hk (hsafe k hk hc)
    refine ⟨fun p => (l.lookup p).join, ?_, ?_⟩
    · unfold get
      rw [a]
      rfl
    · intro p hp
      simp only [b]
      rw [if_pos hp, h3 k p hp]
  · intro hc
    have hall : ∀ k, k < top items 0 → Safe K S (top items 0) k := by
      intro k hk
      refine hsafe k hk ?_
      by_cases hk' : k + 1 < top items 0
      · exact .inl hk'
      · rcases hc with hc | hc
        · exact .inr (.inl hc)
        · exact .inr (.inr (hc k (by omega)))
    have hpos : 0 < K.size := by unfold Kind.size; omega
    have := iterate_spec h2 hall (top items 0) 0 (by omega) (seg (blk K S) 0 (top items 0)).length
      (by rw [hlen]; exact Nat.le_mul_of_pos_right _ hpos)
    rw [Nat.zero_mul] at this
    refine ⟨_, this, ?_, ?_⟩
    · rw [List.map_map]
      conv => rhs; rw [← List.map_id (List.range (top items 0))]
      refine List.map_congr_left fun i _ => ?_
      simp
    · intro x hx p hp
      obtain ⟨i, -, rfl⟩ := List.mem_map.1 hx
      simp only [Nat.zero_add]
      rw [if_pos hp, h3 i p hp]

/-- Outside of the mapped pages. -/
theorem get_outside {out : List UInt8} {k : Nat} (h : out.length ≤ k * K.size) (hr : room out.length ≤ 12) : get K out k = none := by
  have hm : (pages out).length = out.length + room out.length := by simp [pages, room]
  have hs : readSlot (pages out) (k * K.size + (5 + 13 * 0)) = none := by
    unfold readSlot rd
    rw [if_neg (by rw [hm]; omega)]
    rfl
  unfold get readBlock
  have : K.perms.zipIdx = (3, 0) :: K.perms.zipIdx.drop 1 := by cases K <;> rfl
  rw [this, List.mapM_cons]
  simp only
  rw [hs]
  rfl

end
end Trident.Flat
