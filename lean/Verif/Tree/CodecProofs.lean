import Verif.Tree.Coord
import Verif.Tree.TreePut
/-! Helper proofs for the serialisation of nodes and for the coordinates (no property statements here). -/
namespace Trident.BTree

/-! ## Keys -/

theorem encV_length_le {k n : Nat} (hk : 0 < k) (h : n < 128 ^ k) : (encV n).length ≤ k := by
  induction k generalizing n with
  | zero => omega
  | succ k ih =>
    unfold encV
    by_cases h1 : n < 128
    · rw [if_pos h1]; simp
    · rw [if_neg h1, List.length_cons]
      have hk : 0 < k := by
        rcases Nat.eq_zero_or_pos k with rfl | h
        · simp at h; omega
        · exact h
      have := ih hk (n := n / 128) (by rw [Nat.div_lt_iff_lt_mul (by omega)]; rw [Nat.pow_succ] at h; exact h)
      omega

theorem encV_length_64 {n : Nat} (h : n < 2 ^ 64) : (encV n).length ≤ 10 := encV_length_le (by omega) (Nat.lt_of_lt_of_le h (by decide))

theorem readOffs_spec (m : Mem) {fuel : Nat} : ∀ (l : List Nat) (a : Nat), Placed m a (l.flatMap encV) → (∀ x ∈ l, (encV x).length ≤ fuel) →
    readOffs m fuel l.length a = (l.map fun (x : Nat) => (x : Int), a + (l.flatMap encV).length)
  | [], a, _, _ => rfl
  | x :: l, a, h, hf => by
    rw [List.flatMap_cons, placed_append] at h
    have e := decVMem_encV m a x h.1 fuel (hf x (by simp))
    have I := readOffs_spec m l (a + (encV x).length) h.2 fun y hy => hf y (by simp [hy])
    simp only [List.length_cons, readOffs, e, I, List.map_cons, List.flatMap_cons, List.length_append, Nat.add_assoc]

theorem offs_get {n : Keys} (hs : n.list.Pairwise (· < ·)) (hc : n.consecutive = false) {i j : Nat} (hij : i < j) (hj : j + 1 < n.size) :
    n.offs.getD i 0 < n.offs.getD j 0 := by
  have := Keys.keyAt_lt hs (i := i + 1) (j := j + 1) (by omega) hj
  simp only [Keys.keyAt, hc] at this
  simpa using this

theorem offs_pos {n : Keys} (hs : n.list.Pairwise (· < ·)) (hc : n.consecutive = false) {i : Nat} (hi : i + 1 < n.size) : 0 < n.offs.getD i 0 := by
  have := Keys.keyAt_lt hs (i := 0) (j := i + 1) (by omega) hi
  have e1 : n.keyAt 0 = n.first := by simp [Keys.keyAt, hc]
  have e2 : n.keyAt (i + 1) = n.first + n.offs.getD i 0 := by simp [Keys.keyAt, hc]
  rw [e1, e2] at this
  omega

/-- Distances in an increasing sequence of integers. -/
theorem gap {g : Nat → Int} {N : Nat} (hg : ∀ i j, i < j → j < N → g i < g j) {i : Nat} : ∀ k, i + k < N → g i + k ≤ g (i + k)
  | 0, _ => by simp
  | k + 1, h => by
    have h1 := gap hg (i := i) k (by omega)
    have h2 := hg (i + k) (i + (k + 1)) (by omega) h
    omega

theorem stepByte_spec {n : Keys} (h : n.Wf) (hs : n.list.Pairwise (· < ·)) (hn : 1 < n.size) :
    n.stepByte < 256 ∧ (n.stepByte ≠ 0 → n.list = (List.range n.size).map fun (i : Nat) => n.first + (i : Int) * (n.stepByte : Int)) ∧ (n.stepByte = 0 → n.consecutive = false) := by
  cases hc : n.consecutive with
  | true =>
    have : n.stepByte = 1 := by simp [Keys.stepByte, hc]
    rw [this]
    refine ⟨by omega, fun _ => ?_, by simp⟩
    rw [Keys.list_consec h hc]; simp
  | false =>
    have hmono := fun i j (hij : i < j) (hj : j < n.size - 1) => offs_get hs hc hij (by omega : j + 1 < n.size)
    have hL : ∀ k : Int, (∀ i, i + 1 < n.size → n.offs.getD i 0 = ((i : Int) + 1) * k) → n.list = (List.range n.size).map fun (i : Nat) => n.first + (i : Int) * k := by
      intro k hk
      unfold Keys.list
      apply List.map_congr_left
      intro i hi
      rw [List.mem_range] at hi
      rw [Keys.keyAt, if_neg (by simp [hc])]
      cases i with
      | zero => simp
      | succ i => rw [if_pos (by omega), Nat.add_sub_cancel, hk i hi]; simp
    unfold Keys.stepByte
    rw [hc]
    simp only [Bool.false_or]
    by_cases h1 : (n.offs.getD 0 0 == 1 && n.offs.getD (n.size - 2) 0 == (n.size : Int) - 1) = true
    · rw [if_pos h1]
      simp only [Bool.and_eq_true, beq_iff_eq] at h1
      refine ⟨by omega, fun _ => hL 1 fun i hi => ?_, by simp⟩
      have a1 := gap hmono (i := 0) i (by omega)
      have a2 := gap hmono (i := i) (n.size - 2 - i) (by omega)
      rw [Nat.zero_add] at a1
      rw [show i + (n.size - 2 - i) = n.size - 2 by omega] at a2
      omega
    · rw [if_neg h1]
      split
      · rename_i h2
        split
        · rename_i h3
          refine ⟨by omega, fun _ => hL _ fun i hi => ?_, by simp⟩
          rw [List.all_eq_true] at h3
          induction i with
          | zero => rw [show ((0 : Nat) : Int) + 1 = 1 from rfl, Int.one_mul]; omega
          | succ i ih =>
            have e := h3 i (by rw [List.mem_range]; omega)
            rw [beq_iff_eq] at e
            have := ih (by omega)
            rw [show ((i + 1 : Nat) : Int) + 1 = (((i : Int) + 1) + 1) by omega, Int.add_mul, ← this]
            omega
        · exact ⟨by omega, by simp, by simp⟩
      · exact ⟨by omega, by simp, by simp⟩

theorem rdInt_enc {m : Mem} {a n : Nat} (h : Placed m a (encBE 4 n)) (hn : n < 2 ^ 32) : rdInt m a = n := Width.read_enc .b4 m a n hn h
theorem rdLong_enc {m : Mem} {a n : Nat} (h : Placed m a (encBE 8 n)) (hn : n < 2 ^ 63) : rdLong m a = n := Width.read_enc .b8 m a n hn h
theorem rdShort_enc {m : Mem} {a n : Nat} (h : Placed m a (encBE 2 n)) (hn : n < 2 ^ 16) : rdShort m a = n := Width.read_enc .b2 m a n hn h

theorem sb_lt {k : Nat} (h : k < 128) : sb (UInt8.ofNat k) = k := by rw [sb_ofNat _ (by omega)]; omega

/-- Reading back the keys: the same keys, and the position after them. -/
theorem Keys.unserialize_spec {n : Keys} (h : n.Wf) (hs : n.list.Pairwise (· < ·)) (hsz : n.size < 2 ^ 31) (hb : ∀ x ∈ n.list, 0 ≤ x ∧ x < 2 ^ 63)
    (hstep : n.stepByte < 128 ∨ n.size ≤ 1) (n0 : Keys) (m : Mem) (a : Nat) (hm : Placed m a n.serialize) :
    (Keys.unserialize n0 m 10 a).1.list = n.list ∧ (Keys.unserialize n0 m 10 a).2 = a + n.serialize.length := by
  unfold Keys.serialize at hm ⊢
  rw [placed_append, encBE_length] at hm
  obtain ⟨m1, m2⟩ := hm
  have e1 : (rdInt m a).toNat = n.size := by rw [rdInt_enc m1 (by omega)]; omega
  unfold Keys.unserialize
  simp only [e1]
  by_cases h0 : 0 < n.size
  · rw [if_pos h0]
    rw [if_pos h0] at m2 ⊢
    rw [placed_append, encBE_length] at m2
    obtain ⟨m2, m3⟩ := m2
    have hf : n.first ∈ n.list := by
      have := List.mem_of_getElem? (Keys.list_getElem? n h0)
      rw [Keys.keyAt] at this
      simpa using this
    have hfb := hb _ hf
    have e2 : rdLong m (a + 4) = n.first := by rw [rdLong_enc m2 (by omega)]; omega
    rw [e2]
    by_cases h1 : 1 < n.size
    · rw [if_pos h1]
      rw [if_pos h1, placed_cons] at m3
      rw [if_pos h1]
      obtain ⟨m3, m4⟩ := m3
      have hst : n.stepByte < 128 := by omega
      have m3 : m (a + 12) = UInt8.ofNat n.stepByte := m3
      rw [m3, sb_lt hst]
      obtain ⟨-, s2, s3⟩ := stepByte_spec h hs h1
      by_cases hz : n.stepByte = 0
      · rw [if_neg (by omega)]
        rw [if_pos hz] at m4
        rw [if_pos hz]
        have hc := s3 hz
        have hol := h.len hc
        have hoff : ∀ o ∈ n.offs, 0 ≤ o ∧ o < 2 ^ 63 := by
          intro o ho
          obtain ⟨i, hi, rfl⟩ := List.mem_iff_getElem.1 ho
          have p1 := offs_pos hs hc (i := i) (by omega)
          have p2 := (hb _ (List.mem_of_getElem? (Keys.list_getElem? n (i := i + 1) (by omega)))).2
          rw [Keys.keyAt, if_neg (by simp [hc]), if_pos (by omega), Nat.add_sub_cancel] at p2
          simp only [List.getD, List.getElem?_eq_getElem hi, Option.getD_some] at p1 p2
          omega
        have R := readOffs_spec m (fuel := 10) (n.offs.map Int.toNat) (a + 13) (by
            rw [List.flatMap_map]; exact m4) (by
            intro x hx
            obtain ⟨o, ho, rfl⟩ := List.mem_map.1 hx
            have := hoff o ho
            exact encV_length_64 (by omega))
        rw [List.length_map, hol] at R
        rw [R]
        have hmap : (n.offs.map Int.toNat).map (fun (x : Nat) => (x : Int)) = n.offs := by
          rw [List.map_map]
          conv => rhs; rw [← List.map_id n.offs]
          apply List.map_congr_left
          intro o ho
          have := hoff o ho
          simp only [Function.comp]
          show _ = o
          omega
        rw [hmap]
        constructor
        · rw [Keys.list_offs h hc h0]
          exact Keys.list_offs (n := { n0 with size := n.size, first := n.first, consecutive := false, offs := n.offs }) ⟨by simp, fun _ => hol⟩ rfl h0
        · simp [List.flatMap_map]; omega
      · rw [if_pos (by omega)]
        rw [if_neg hz]
        constructor
        · rw [s2 hz]
          unfold Keys.list
          apply List.map_congr_left
          intro i _
          simp [Keys.keyAt]
        · simp
    · rw [if_neg h1]
      rw [if_neg h1]
      constructor
      · have hs1 : n.size = 1 := by omega
        have hk : ∀ k : Keys, k.size = 1 → k.list = [k.first] := by
          intro k hk
          simp [Keys.list, hk, Keys.keyAt]
        rw [hk n hs1, hk _ (by exact hs1)]
      · simp
  · rw [if_neg h0]
    rw [if_neg h0]
    constructor
    · rw [Keys.list_nil (n := n) (by omega)]
      exact Keys.list_nil (by show n.size = 0; omega)
    · simp

/-! ## Adding coordinates -/

/-- A list of coordinates as the code keeps them: one for each permutation, in order. -/
def Ordered (l : List Coord) : Prop := (l.map Coord.perm).Pairwise (· < ·)

theorem coordsOf_go {l : List Coord} (h : Ordered l) (f : TermCoords) (p : Nat) (x : Info) :
    (l.foldl (fun f c => fun p => if p = c.perm then some c.info else f p) f) p = some x ↔ ⟨p, x⟩ ∈ l ∨ (f p = some x ∧ ∀ c ∈ l, c.perm ≠ p) := by
  induction l generalizing f with
  | nil => simp
  | cons c l ih =>
    unfold Ordered at h
    rw [List.map_cons, List.pairwise_cons] at h
    rw [List.foldl_cons, ih h.2]
    have hc : ∀ c' ∈ l, c.perm < c'.perm := fun c' hc' => h.1 _ (List.mem_map_of_mem hc')
    by_cases hp : p = c.perm
    · subst hp
      have hnm : ∀ y, (⟨c.perm, y⟩ : Coord) ∉ l := fun y hy => by have := hc _ hy; simp at this
      simp only [if_pos, Option.some.injEq, List.mem_cons]
      constructor
      · rintro (h' | ⟨rfl, -⟩)
        · exact absurd h' (hnm _)
        · exact .inl (.inl rfl)
      · rintro ((h' | h') | ⟨-, h'⟩)
        · exact .inr ⟨by rw [← h'], fun c' h'' => by have := hc c' h''; omega⟩
        · exact absurd h' (hnm _)
        · exact absurd rfl (h' c (.inl rfl))
    · simp only [if_neg hp, List.mem_cons]
      constructor
      · rintro (h' | ⟨h1, h2⟩)
        · exact .inl (.inr h')
        · refine .inr ⟨h1, fun c' hc' => ?_⟩
          rcases hc' with rfl | hc'
          · exact fun e => hp e.symm
          · exact h2 c' hc'
      · rintro ((h' | h') | ⟨h1, h2⟩)
        · exact absurd (congrArg Coord.perm h') hp
        · exact .inl h'
        · exact .inr ⟨h1, fun c' hc' => h2 c' (.inr hc')⟩

theorem coordsOf_iff {l : List Coord} (h : Ordered l) (p : Nat) (x : Info) : coordsOf l p = some x ↔ ⟨p, x⟩ ∈ l := by
  unfold coordsOf
  rw [coordsOf_go h]
  simp

theorem coordsOf_none {l : List Coord} (h : Ordered l) (p : Nat) : coordsOf l p = none ↔ ∀ x, ⟨p, x⟩ ∉ l := by
  constructor
  · intro e x hx
    rw [(coordsOf_iff h p x).2 hx] at e
    simp at e
  · intro e
    cases hc : coordsOf l p with
    | none => rfl
    | some x => exact absurd ((coordsOf_iff h p x).1 hc) (e x)

/-- What is left of the old coordinates and what is there of the new ones, after the rounds before `i`. -/
def After (v : TermCoords) (old : List Coord) (i : Nat) (p : Nat) (x : Info) : Prop :=
  if p < i then v p = some x ∨ (v p = none ∧ (∃ j, j < p ∧ v j ≠ none) ∧ ⟨p, x⟩ ∈ old) else ⟨p, x⟩ ∈ old

structure AddInv (v : TermCoords) (old : List Coord) (i : Nat) (s : List Coord × List Coord) : Prop where
  ordered : Ordered (s.1 ++ s.2)
  mem : ∀ p x, ⟨p, x⟩ ∈ s.1 ++ s.2 ↔ After v old i p x
  act : (∃ j, j < i ∧ v j ≠ none) → ∃ c cs, s.2 = c :: cs ∧ c.perm < i
  idle : (¬ ∃ j, j < i ∧ v j ≠ none) → s.1 = []

theorem takeWhile_filter {l : List Coord} (h : Ordered l) (i : Nat) :
    l.takeWhile (fun c => decide (c.perm < i)) = l.filter (fun c => decide (c.perm < i)) ∧
    l.dropWhile (fun c => decide (c.perm < i)) = l.filter (fun c => decide (i ≤ c.perm)) := by
  induction l with
  | nil => simp
  | cons c l ih =>
    unfold Ordered at h
    rw [List.map_cons, List.pairwise_cons] at h
    obtain ⟨i1, i2⟩ := ih h.2
    by_cases hc : c.perm < i
    · have hc' : ¬ i ≤ c.perm := by omega
      constructor
      · simp [hc, i1]
      · rw [List.dropWhile_cons, if_pos (by simpa using hc), List.filter_cons, if_neg (by simpa using hc), i2]
    · have hc' : i ≤ c.perm := by omega
      have hl : ∀ c' ∈ l, ¬ c'.perm < i := fun c' hc' => by have := h.1 _ (List.mem_map_of_mem hc'); omega
      have e1 : l.filter (fun c => decide (c.perm < i)) = [] := by
        rw [List.filter_eq_nil_iff]; intro c' h'; simpa using hl c' h'
      have e2 : l.filter (fun c => decide (i ≤ c.perm)) = l := by
        rw [List.filter_eq_self]; intro c' h'; simpa using hl c' h'
      constructor
      · simp [hc, e1]
      · rw [List.dropWhile_cons, if_neg (by simpa using hc), List.filter_cons, if_pos (by simpa using hc'), e2]

/-- Putting in an element. -/
theorem ordered_put {l : List Coord} (h : Ordered l) (i : Nat) (x : Info) :
    Ordered (l.filter (fun c => decide (c.perm < i)) ++ ⟨i, x⟩ :: l.filter (fun c => decide (i < c.perm))) := by
  unfold Ordered at *
  rw [List.map_append, List.map_cons, List.pairwise_append, List.pairwise_cons]
  refine ⟨h.sublist (List.filter_sublist.map _), ⟨fun y hy => ?_, h.sublist (List.filter_sublist.map _)⟩, fun a ha b hb => ?_⟩
  · obtain ⟨c, hc, rfl⟩ := List.mem_map.1 hy
    simpa using (List.mem_filter.1 hc).2
  · obtain ⟨c, hc, rfl⟩ := List.mem_map.1 ha
    have h1 : c.perm < i := by simpa using (List.mem_filter.1 hc).2
    rcases List.mem_cons.1 hb with rfl | hb
    · exact h1
    · obtain ⟨c', hc', rfl⟩ := List.mem_map.1 hb
      have h2 : i < c'.perm := by simpa using (List.mem_filter.1 hc').2
      omega

theorem addStep_spec {v : TermCoords} {old : List Coord} (i : Nat) {s : List Coord × List Coord} (h : AddInv v old i s) :
    AddInv v old (i + 1) (addStep v s i) := by
  obtain ⟨pre, cur⟩ := s
  obtain ⟨h1, h2, h3, h4⟩ := h
  simp only at h1 h2 h3 h4
  have hcur : Ordered cur := by
    unfold Ordered at *
    rw [List.map_append, List.pairwise_append] at h1
    exact h1.2.1
  unfold addStep
  cases hv : v i with
  | none =>
    simp only
    by_cases hact : ∃ j, j < i ∧ v j ≠ none
    · obtain ⟨c, cs, rfl, hc⟩ := h3 hact
      simp only
      rw [if_neg (by omega)]
      refine ⟨h1, fun p x => ?_, fun _ => ⟨c, cs, rfl, by omega⟩, fun hn => ?_⟩
      · rw [h2]
        unfold After
        rcases Nat.lt_trichotomy p i with hp | rfl | hp
        · rw [if_pos hp, if_pos (by omega)]
        · rw [if_neg (by omega), if_pos (by omega)]
          simp [hv, hact]
        · rw [if_neg (by omega), if_neg (by omega)]
      · obtain ⟨j, j1, j2⟩ := hact
        exact absurd ⟨j, by omega, j2⟩ hn
    · have hpre := h4 hact
      subst hpre
      simp only [List.nil_append] at h1 h2
      have hact' : ¬ ∃ j, j < i + 1 ∧ v j ≠ none := by
        rintro ⟨j, j1, j2⟩
        by_cases e : j = i
        · subst e; exact j2 hv
        · exact hact ⟨j, by omega, j2⟩
      -- nothing before `i` is left
      have hlow : ∀ c ∈ cur, i ≤ c.perm := by
        intro c hc
        have := (h2 c.perm c.info).1 hc
        unfold After at this
        by_cases hlt : c.perm < i
        · rw [if_pos hlt] at this
          rcases this with e | ⟨-, ⟨j, j1, j2⟩, -⟩
          · exact absurd ⟨c.perm, hlt, by rw [e]; simp⟩ hact
          · exact absurd ⟨j, by omega, j2⟩ hact
        · omega
      have hlast : ∀ p x, After v old (i + 1) p x ↔ (p ≠ i ∧ After v old i p x) := by
        intro p x
        unfold After
        rcases Nat.lt_trichotomy p i with hp | rfl | hp
        · rw [if_pos hp, if_pos (by omega)]; simp [Nat.ne_of_lt hp]
        · rw [if_pos (by omega)]
          simp only [hv]
          constructor
          · rintro (e | ⟨-, ⟨j, j1, j2⟩, -⟩)
            · simp at e
            · exact absurd ⟨j, by omega, j2⟩ hact
          · rintro ⟨e, -⟩; exact absurd rfl e
        · rw [if_neg (by omega), if_neg (by omega)]; simp [Nat.ne_of_gt hp]
      match cur, hcur, h1, h2, hlow with
      | [], _, _, h2, _ =>
        refine ⟨by simp [Ordered], fun p x => ?_, fun ha => absurd ha hact', fun _ => rfl⟩
        rw [hlast, ← h2]; simp
      | c :: cs, hcur, h1, h2, hlow =>
        simp only
        have hcur' := hcur
        unfold Ordered at hcur'
        rw [List.map_cons, List.pairwise_cons] at hcur'
        have hgt : ∀ c' ∈ cs, c.perm < c'.perm := fun c' hc' => hcur'.1 _ (List.mem_map_of_mem hc')
        by_cases hc : c.perm = i
        · rw [if_pos hc]
          refine ⟨hcur'.2, fun p x => ?_, fun ha => absurd ha hact', fun _ => rfl⟩
          rw [hlast, ← h2]
          simp only [List.nil_append, List.mem_cons]
          constructor
          · intro hm
            have := hgt _ hm
            simp only at this
            exact ⟨by omega, .inr hm⟩
          · rintro ⟨hp, hm | hm⟩
            · rw [← hm] at hc; exact absurd hc hp
            · exact hm
        · rw [if_neg hc]
          have hci := hlow c (by simp)
          refine ⟨h1, fun p x => ?_, fun ha => absurd ha hact', fun _ => rfl⟩
          rw [hlast, ← h2]
          simp only [List.nil_append, List.mem_cons]
          constructor
          · rintro (hm | hm)
            · refine ⟨fun e => ?_, .inl hm⟩
              rw [← hm] at hc
              exact hc e
            · have := hgt _ hm
              simp only at this
              exact ⟨by omega, .inr hm⟩
          · exact fun h => h.2
  | some x =>
    simp only
    have hpre : ∀ c ∈ pre, c.perm < i := by
      by_cases hact : ∃ j, j < i ∧ v j ≠ none
      · obtain ⟨c, cs, rfl, hc⟩ := h3 hact
        intro c' hc'
        unfold Ordered at h1
        rw [List.map_append, List.pairwise_append] at h1
        have := h1.2.2 c'.perm (List.mem_map_of_mem hc') c.perm (by simp)
        omega
      · rw [h4 hact]; simp
    obtain ⟨t1, t2⟩ := takeWhile_filter hcur i
    -- the result
    suffices H : ∀ r : List Coord × List Coord, r.1 = pre ++ cur.filter (fun c => decide (c.perm < i)) → r.2 = ⟨i, x⟩ :: cur.filter (fun c => decide (i < c.perm)) → AddInv v old (i + 1) r by
      have hd : cur.dropWhile (fun c => decide (c.perm < i)) = [] ∨ ∃ c cs, cur.dropWhile (fun c => decide (c.perm < i)) = c :: cs := by
        cases cur.dropWhile (fun c => decide (c.perm < i)) with
        | nil => exact .inl rfl
        | cons c cs => exact .inr ⟨c, cs, rfl⟩
      have hgt : cur.filter (fun c => decide (i < c.perm)) = (cur.filter (fun c => decide (i ≤ c.perm))).filter (fun c => decide (i < c.perm)) := by
        rw [List.filter_filter]
        apply List.filter_congr
        intro c _
        by_cases h : i < c.perm
        · simp [h, Nat.le_of_lt h]
        · simp [h]
      rcases hd with e | ⟨c, cs, e⟩
      · rw [e]
        refine H _ (by rw [t1]) ?_
        rw [hgt, ← t2, e]; rfl
      · rw [e]
        have ho : Ordered (c :: cs) := by
          rw [← e, t2]
          unfold Ordered at hcur ⊢
          exact hcur.sublist (List.filter_sublist.map _)
        unfold Ordered at ho
        rw [List.map_cons, List.pairwise_cons] at ho
        have hge : i ≤ c.perm := by
          have : c ∈ cur.filter (fun c => decide (i ≤ c.perm)) := by rw [← t2, e]; simp
          simpa using (List.mem_filter.1 this).2
        have hcs : cs.filter (fun c => decide (i < c.perm)) = cs := by
          rw [List.filter_eq_self]
          intro c' hc'
          have := ho.1 _ (List.mem_map_of_mem hc')
          simp; omega
        simp only
        by_cases hc : c.perm > i
        · rw [if_pos hc]
          refine H _ (by rw [t1]) ?_
          rw [hgt, ← t2, e, List.filter_cons, if_pos (by simpa using hc), hcs]
        · rw [if_neg hc]
          refine H _ (by rw [t1]) ?_
          rw [hgt, ← t2, e, List.filter_cons, if_neg (by simpa using hc), hcs]
    intro r r1 r2
    have hfull : r.1 ++ r.2 = (pre ++ cur).filter (fun c => decide (c.perm < i)) ++ ⟨i, x⟩ :: (pre ++ cur).filter (fun c => decide (i < c.perm)) := by
      rw [r1, r2, List.filter_append, List.filter_append]
      have e1 : pre.filter (fun c => decide (c.perm < i)) = pre := by
        rw [List.filter_eq_self]; intro c hc; simpa using hpre c hc
      have e2 : pre.filter (fun c => decide (i < c.perm)) = [] := by
        rw [List.filter_eq_nil_iff]; intro c hc; have := hpre c hc; simp; omega
      rw [e1, e2]; simp
    refine ⟨by rw [hfull]; exact ordered_put h1 i x, fun p y => ?_, fun _ => ⟨_, _, r2, by simp⟩, fun hn => absurd ⟨i, by omega, by rw [hv]; simp⟩ hn⟩
    rw [hfull, List.mem_append, List.mem_cons, List.mem_filter, List.mem_filter, h2]
    unfold After
    simp only [Coord.mk.injEq, decide_eq_true_eq]
    rcases Nat.lt_trichotomy p i with hp | rfl | hp
    · have h1 : p < i + 1 := by omega
      have h2 : ¬ i < p := by omega
      have h3 : p ≠ i := by omega
      simp [hp, h1, h2, h3]
    · simp [hv, eq_comm]
    · have h1 : ¬ p < i + 1 := by omega
      have h2 : ¬ p < i := by omega
      have h3 : p ≠ i := by omega
      simp [hp, h1, h2, h3]

theorem add_loop {v : TermCoords} {old : List Coord} (h : Ordered old) : ∀ n, AddInv v old n ((List.range n).foldl (addStep v) ([], old))
  | 0 => ⟨h, fun p x => by simp [After], fun ⟨j, hj, _⟩ => by omega, fun _ => rfl⟩
  | n + 1 => by
    rw [List.range_succ, List.foldl_append, List.foldl_cons, List.foldl_nil]
    exact addStep_spec n (add_loop h n)

theorem addCoordinates_ordered {old : List Coord} (h : Ordered old) (v : TermCoords) : Ordered (addCoordinates old v) := (add_loop h 6).ordered

theorem addCoordinates_mem {old : List Coord} (h : Ordered old) (v : TermCoords) (p : Nat) (x : Info) :
    ⟨p, x⟩ ∈ addCoordinates old v ↔ After v old 6 p x := (add_loop h 6).mem p x

/-! ## Reading coordinates back -/

theorem testBit_combinations (l : List Coord) (p : Nat) : (combinations l).testBit p = l.any fun c => c.perm == p := by
  unfold combinations
  have : ∀ (l : List Coord) (a : Nat), (l.foldl (fun a c => a ||| 1 <<< c.perm) a).testBit p = (a.testBit p || l.any fun c => c.perm == p) := by
    intro l
    induction l with
    | nil => simp
    | cons c l ih =>
      intro a
      rw [List.foldl_cons, ih, Nat.testBit_or, List.any_cons, Nat.one_shiftLeft, Nat.testBit_two_pow]
      rw [Bool.or_assoc]
      congr 2
  rw [this]; simp

theorem combinations_lt {l : List Coord} (h : ∀ c ∈ l, c.perm < 6) : combinations l < 64 := by
  apply Nat.lt_pow_two_of_testBit (n := 6)
  intro i hi
  rw [testBit_combinations, List.any_eq_false]
  intro c hc
  have := h c hc
  simp; omega

/-- The permutations the loop of `parseInternalLine` finds. -/
def bitsLoop : Nat → Nat → Nat → List Nat
  | 0, _, _ => []
  | k + 1, perms, idx => (skipBits 8 perms idx).2 :: bitsLoop k ((skipBits 8 perms idx).1 / 2) ((skipBits 8 perms idx).2 + 1)

theorem bitsLoop_spec : ∀ k, k < 64 → bitsLoop (NCOMBS.getD k 0) k 0 = (List.range 6).filter k.testBit ∧ NCOMBS.getD k 0 = ((List.range 6).filter k.testBit).length := by
  decide

theorem sorted_ext {l l' : List Nat} (h : l.Pairwise (· < ·)) (h' : l'.Pairwise (· < ·)) (hm : ∀ x, x ∈ l ↔ x ∈ l') : l = l' := by
  have hp : l.Perm l' := (List.perm_ext_iff_of_nodup (h.imp (by omega)) (h'.imp (by omega))).2 hm
  exact hp.eq_of_pairwise (fun a b _ _ h1 h2 => by omega) h h'

theorem bits_combinations {l : List Coord} (h : Ordered l) (hp : ∀ c ∈ l, c.perm < 6) : (List.range 6).filter (combinations l).testBit = l.map Coord.perm := by
  apply sorted_ext (List.pairwise_lt_range.sublist List.filter_sublist) h
  intro x
  rw [List.mem_filter, testBit_combinations, List.any_eq_true, List.mem_map, List.mem_range]
  constructor
  · rintro ⟨-, c, hc, e⟩; exact ⟨c, hc, by simpa using e⟩
  · rintro ⟨c, hc, rfl⟩; exact ⟨hp c hc, c, hc, by simp⟩

/-- The fields fit. -/
def Coord.Fits (c : Coord) : Prop := c.perm < 6 ∧ c.info.n < 2 ^ 64 ∧ c.info.file < 2 ^ 16 ∧ c.info.pos < 2 ^ 64

theorem parseLoop_spec (m : Mem) : ∀ (l : List Coord) (perms idx a : Nat), Placed m a (l.flatMap Coord.bytes) → (∀ c ∈ l, c.Fits) →
    bitsLoop l.length perms idx = l.map Coord.perm → parseLoop m l.length perms idx a = l
  | [], _, _, _, _, _, _ => rfl
  | c :: l, perms, idx, a, hm, hf, hb => by
    obtain ⟨f1, f2, f3, f4⟩ := hf c (by simp)
    rw [List.flatMap_cons, Coord.bytes, placed_append, placed_append, placed_append, placed_append] at hm
    obtain ⟨⟨⟨⟨m1, m2⟩, m3⟩, m4⟩, m5⟩ := hm
    have e1 := decVMem_encV m a _ m1 10 (encV_length_64 f2)
    have e2 := decVMem_encV m _ _ m2 10 (encV_length_64 (by omega))
    rw [List.length_append, ← Nat.add_assoc] at m3
    have e3 := decVMem_encV m _ _ m3 10 (encV_length_64 f4)
    simp only [List.length_append, List.length_singleton] at m4 m5
    rw [placed_cons] at m4
    simp only [List.length_cons, List.map_cons, bitsLoop, List.cons.injEq] at hb
    simp only [List.length_cons, parseLoop, e1, e2, e3]
    have e4 : m (a + (encV c.info.n).length + (encV c.info.file).length + (encV c.info.pos).length) = c.info.strat := by
      rw [← m4.1]; congr 1; omega
    rw [e4, hb.1, Nat.mod_eq_of_lt (by omega)]
    have I := parseLoop_spec m l ((skipBits 8 perms idx).1 / 2) ((skipBits 8 perms idx).2 + 1) (a + (encV c.info.n).length + (encV c.info.file).length + (encV c.info.pos).length + 1)
      (by have : a + ((encV c.info.n).length + (encV c.info.file).length + (encV c.info.pos).length + 1) = a + (encV c.info.n).length + (encV c.info.file).length + (encV c.info.pos).length + 1 := by omega
          rw [← this]; exact m5)
      (fun c' hc' => hf c' (by simp [hc'])) hb.2
    rw [hb.1] at I
    rw [I]

theorem placed_map {α} {m : Mem} (f : α → UInt8) : ∀ (l : List α) {a : Nat}, Placed m a (l.map f) → ∀ i (h : i < l.length), m (a + i) = f l[i]
  | l, a, h, i, hi => by
    have := h i (by simpa using hi)
    simpa using this

theorem placed_starts {m : Mem} (f : Nat → Nat) : ∀ (k j a : Nat), Placed m a ((List.range' j k).flatMap fun i => encBE 2 (f i)) →
    ∀ i, i < k → Placed m (a + 2 * i) (encBE 2 (f (j + i)))
  | 0, _, _, _, i, hi => by omega
  | k + 1, j, a, h, i, hi => by
    rw [List.range'_succ, List.flatMap_cons, placed_append, encBE_length] at h
    cases i with
    | zero => simpa using h.1
    | succ i =>
      have := placed_starts f k (j + 1) (a + 2) h.2 i (by omega)
      rwa [show a + 2 + 2 * i = a + 2 * (i + 1) by omega, show j + 1 + i = j + (i + 1) by omega] at this

theorem starts_length (f : Nat → Nat) : ∀ l : List Nat, (l.flatMap fun i => encBE 2 (f i)).length = 2 * l.length
  | [] => rfl
  | x :: l => by rw [List.flatMap_cons, List.length_append, encBE_length, starts_length f l, List.length_cons]; omega

theorem parseInternalLine_spec {vals : List (List Coord)} (hv : ∀ l ∈ vals, Ordered l ∧ ∀ c ∈ l, c.Fits) {bs : List UInt8} (hs : serializeValues vals = some bs)
    {m : Mem} {a : Nat} (hm : Placed m a bs) {i : Nat} (hi : i < vals.length) : parseInternalLine m a vals.length i = vals[i] := by
  unfold serializeValues at hs
  by_cases hall : ((List.range vals.length).all fun i => diffAt vals i ≤ 65535) = true
  · rw [if_pos hall] at hs
    have hs := Option.some.inj hs
    subst hs
    rw [placed_append, placed_append, placed_append] at hm
    obtain ⟨⟨⟨m1, m2⟩, -⟩, m4⟩ := hm
    simp only [List.length_append, List.length_map, starts_length, List.length_range, encBE_length] at m2 m4
    have hdi : diffAt vals i ≤ 65535 := by
      rw [List.all_eq_true] at hall
      simpa using hall i (List.mem_range.2 hi)
    obtain ⟨ho, hf⟩ := hv vals[i] (List.getElem_mem hi)
    have hp6 : ∀ c ∈ vals[i], c.perm < 6 := fun c hc => (hf c hc).1
    have hlt := combinations_lt hp6
    have e1 : (m (a + i)).toNat = combinations vals[i] := by
      rw [placed_map _ _ m1 i hi]; simp; omega
    have e2 : rdShort m (a + (vals.length + i * 2)) = diffAt vals i := by
      rw [List.range_eq_range'] at m2
      have := placed_starts (diffAt vals) vals.length 0 _ m2 i hi
      rw [show a + vals.length + 2 * i = a + (vals.length + i * 2) by omega, Nat.zero_add] at this
      exact rdShort_enc this (by omega)
    unfold parseInternalLine
    rw [e1, e2]
    obtain ⟨b1, b2⟩ := bitsLoop_spec _ hlt
    rw [bits_combinations ho hp6] at b1 b2
    rw [List.length_map] at b2
    rw [b2] at b1 ⊢
    refine parseLoop_spec m _ _ _ _ ?_ hf b1
    have hsplit : vals.flatMap (fun l => l.flatMap Coord.bytes) = (vals.take i).flatMap (fun l => l.flatMap Coord.bytes) ++ (vals[i].flatMap Coord.bytes ++ (vals.drop (i + 1)).flatMap fun l => l.flatMap Coord.bytes) := by
      rw [← List.flatMap_cons, ← List.drop_eq_getElem_cons hi, ← List.flatMap_append, List.take_append_drop]
    rw [hsplit, placed_append, placed_append] at m4
    have := m4.2.1
    rw [show a + (vals.length + 2 * vals.length + 4) + ((vals.take i).flatMap fun l => l.flatMap Coord.bytes).length = a + ((diffAt vals i : Int).toNat + vals.length * 3) by unfold diffAt; omega] at this
    exact this
  · rw [if_neg hall] at hs; simp at hs

end Trident.BTree
