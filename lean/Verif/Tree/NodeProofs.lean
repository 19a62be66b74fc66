import Verif.Tree.Node
/-! Helper proofs for the keys of a node (no property statements here). -/
namespace Trident.BTree

/-- The representation is consistent. -/
structure Keys.Wf (n : Keys) : Prop where
  one : n.consecutive = true → n.step = 1
  len : n.consecutive = false → n.offs.length = n.size - 1

theorem Keys.empty_wf : Keys.empty.Wf := ⟨fun _ => rfl, by simp [Keys.empty]⟩
theorem Keys.empty_list : Keys.empty.list = [] := rfl

@[simp] theorem Keys.list_length (n : Keys) : n.list.length = n.size := by simp [Keys.list]

theorem Keys.list_getElem (n : Keys) {i : Nat} (h : i < n.list.length) : n.list[i] = n.keyAt i := by simp [Keys.list]

theorem Keys.list_getElem? (n : Keys) {i : Nat} (h : i < n.size) : n.list[i]? = some (n.keyAt i) := by
  rw [List.getElem?_eq_getElem (by simpa using h), Keys.list_getElem]

theorem Keys.list_consec {n : Keys} (h : n.Wf) (hc : n.consecutive = true) : n.list = (List.range n.size).map fun (i : Nat) => n.first + (i : Int) := by
  unfold Keys.list
  apply List.map_congr_left
  intro i _
  rw [Keys.keyAt, if_pos hc, h.one hc]; omega

theorem Keys.list_offs {n : Keys} (h : n.Wf) (hc : n.consecutive = false) (hn : 0 < n.size) : n.list = n.first :: n.offs.map (n.first + ·) := by
  have hl := h.len hc
  apply List.ext_getElem
  · simp; omega
  · intro i h1 h2
    rw [Keys.list_getElem, Keys.keyAt, if_neg (by simp [hc])]
    cases i with
    | zero => simp
    | succ i =>
      simp at h1 h2
      rw [if_pos (by omega)]
      simp [List.getD, h2]

theorem Keys.list_nil {n : Keys} (hn : n.size = 0) : n.list = [] := by simp [Keys.list, hn]

theorem bsearch_spec (a : Nat → Int) (x : Int) (N : Nat) (hs : ∀ i j, i < j → j < N → a i < a j) (lo hi : Nat) (hh : hi ≤ N) (hlh : lo ≤ hi)
    (hl : ∀ i, i < lo → a i < x) (hr : ∀ i, hi ≤ i → i < N → x < a i) :
    match bsearch a x lo hi with
    | .found p => p < N ∧ a p = x
    | .ins p => p ≤ N ∧ (∀ i, i < p → a i < x) ∧ ∀ i, p ≤ i → i < N → x < a i := by
  unfold bsearch
  by_cases h : lo < hi
  · rw [dif_pos h]
    simp only
    have hm1 : lo ≤ (lo + (hi - 1)) / 2 := by omega
    have hm2 : (lo + (hi - 1)) / 2 < hi := by omega
    generalize (lo + (hi - 1)) / 2 = mid at *
    by_cases h1 : a mid < x
    · rw [if_pos h1]
      refine bsearch_spec a x N hs (mid + 1) hi hh (by omega) (fun i hi' => ?_) hr
      by_cases e : i = mid
      · rw [e]; exact h1
      · have := hs i mid (by omega) (by omega); omega
    · rw [if_neg h1]
      by_cases h2 : x < a mid
      · rw [if_pos h2]
        refine bsearch_spec a x N hs lo mid (by omega) hm1 hl (fun i hi' hN => ?_)
        by_cases e : i = mid
        · rw [e]; exact h2
        · have := hs mid i (by omega) hN; omega
      · rw [if_neg h2]
        exact ⟨by omega, by omega⟩
  · rw [dif_neg h]
    exact ⟨by omega, hl, fun i h1 h2 => hr i (by omega) h2⟩
termination_by hi - lo

theorem mem_take_iff {α} {l : List α} {p : Nat} {x : α} : x ∈ l.take p ↔ ∃ i, i < p ∧ l[i]? = some x := by
  rw [List.mem_iff_getElem?]
  constructor
  · rintro ⟨i, hi⟩
    rw [List.getElem?_take] at hi
    split at hi
    · exact ⟨i, by assumption, hi⟩
    · cases hi
  · rintro ⟨i, h1, h2⟩
    exact ⟨i, by rw [List.getElem?_take, if_pos h1]; exact h2⟩

theorem mem_drop_iff {α} {l : List α} {p : Nat} {x : α} : x ∈ l.drop p ↔ ∃ i, p ≤ i ∧ l[i]? = some x := by
  rw [List.mem_iff_getElem?]
  constructor
  · rintro ⟨i, hi⟩
    rw [List.getElem?_drop] at hi
    exact ⟨p + i, by omega, hi⟩
  · rintro ⟨i, h1, h2⟩
    exact ⟨i - p, by rw [List.getElem?_drop]; rwa [show p + (i - p) = i by omega]⟩

/-- What a position says about a sorted list. -/
def Where.Spec (w : Where) (l : List Int) (key : Int) : Prop :=
  match w with
  | .found p => l[p]? = some key
  | .ins p => p ≤ l.length ∧ (∀ x ∈ l.take p, x < key) ∧ ∀ x ∈ l.drop p, key < x

theorem Keys.keyAt_lt {n : Keys} (hs : n.list.Pairwise (· < ·)) {i j : Nat} (h : i < j) (hj : j < n.size) : n.keyAt i < n.keyAt j := by
  have := List.pairwise_iff_getElem.1 hs i j (by simp; omega) (by simpa using hj) h
  rwa [Keys.list_getElem, Keys.list_getElem] at this

theorem spec_ins {n : Keys} {key : Int} {p : Nat} (hp : p ≤ n.size) (h1 : ∀ i, i < p → n.keyAt i < key)
    (h2 : ∀ i, p ≤ i → i < n.size → key < n.keyAt i) : (Where.ins p).Spec n.list key := by
  refine ⟨by simpa using hp, fun x hx => ?_, fun x hx => ?_⟩
  · obtain ⟨i, hi, e⟩ := mem_take_iff.1 hx
    rw [Keys.list_getElem? _ (by omega)] at e
    cases e; exact h1 i hi
  · obtain ⟨i, hi, e⟩ := mem_drop_iff.1 hx
    have : i < n.list.length := (List.getElem?_eq_some_iff.1 e).1
    rw [Keys.list_length] at this
    rw [Keys.list_getElem? _ this] at e
    cases e; exact h2 i hi this

theorem Keys.pos_spec {n : Keys} (h : n.Wf) (hs : n.list.Pairwise (· < ·)) (key : Int) : (n.pos key).Spec n.list key := by
  have k0 : n.keyAt 0 = n.first := by simp [Keys.keyAt]
  have lt := fun {i j} => @Keys.keyAt_lt n hs i j
  unfold Keys.pos
  by_cases h0 : n.size = 0 ∨ key < n.first
  · rw [if_pos h0]
    refine spec_ins (by omega) (by omega) (fun i _ hi => ?_)
    have : n.keyAt 0 ≤ n.keyAt i := by
      by_cases e : i = 0
      · rw [e]; omega
      · have := @lt 0 i (by omega) hi; omega
    omega
  rw [if_neg h0]
  cases hc : n.consecutive with
  | true =>
    have hk : ∀ i : Nat, n.keyAt i = n.first + i := fun i => by rw [Keys.keyAt, if_pos hc, h.one hc]; omega
    rw [if_pos rfl, h.one hc]
    by_cases h1 : key - n.first < n.size * 1
    · rw [if_pos h1, if_neg (by omega)]
      show n.list[_]? = _
      rw [Keys.list_getElem? _ (by omega), hk]
      congr 1; omega
    · rw [if_neg h1]
      refine spec_ins (Nat.le_refl _) (fun i hi => ?_) (by omega)
      rw [hk]; omega
  | false =>
    have hk : ∀ i : Nat, 0 < i → n.keyAt i = n.first + n.offs.getD (i - 1) 0 := fun i hi => by
      rw [Keys.keyAt, if_neg (by simp [hc]), if_pos hi]
    rw [if_neg (by simp)]
    by_cases h1 : key - n.first = 0
    · rw [if_pos h1]
      show n.list[_]? = _
      rw [Keys.list_getElem? _ (by omega), k0]
      congr 1; omega
    rw [if_neg h1]
    by_cases h2 : n.size = 1
    · rw [if_pos h2]
      exact spec_ins (by omega) (fun i hi => by rw [show i = 0 by omega, k0]; omega) (by omega)
    rw [if_neg h2]
    have hl := hk (n.size - 1) (by omega)
    rw [show n.size - 1 - 1 = n.size - 2 by omega] at hl
    by_cases h3 : key - n.first = n.offs.getD (n.size - 2) 0
    · rw [if_pos h3]
      show n.list[_]? = _
      rw [Keys.list_getElem? _ (by omega), hl]
      congr 1; omega
    rw [if_neg h3]
    by_cases h4 : key - n.first > n.offs.getD (n.size - 2) 0
    · rw [if_pos h4]
      refine spec_ins (Nat.le_refl _) (fun i hi => ?_) (by omega)
      by_cases e : i = n.size - 1
      · rw [e, hl]; omega
      · have := @lt i (n.size - 1) (by omega) (by omega); omega
    rw [if_neg h4]
    have B := bsearch_spec (fun i => n.offs.getD i 0) (key - n.first) (n.size - 2) (fun i j hij hj => by
      have := @lt (i + 1) (j + 1) (by omega) (by omega)
      rw [hk _ (by omega), hk _ (by omega)] at this
      simp only [Nat.add_sub_cancel] at this
      show n.offs.getD i 0 < n.offs.getD j 0
      omega) 0 (n.size - 2) (Nat.le_refl _) (Nat.zero_le _) (by omega) (by omega)
    cases hb : bsearch (fun i => n.offs.getD i 0) (key - n.first) 0 (n.size - 2) with
    | found m =>
      rw [hb] at B
      simp only at B ⊢
      show n.list[_]? = _
      rw [Keys.list_getElem? _ (by omega), hk _ (by omega), Nat.add_sub_cancel, B.2]
      congr 1; omega
    | ins l =>
      rw [hb] at B
      simp only at B ⊢
      obtain ⟨b1, b2, b3⟩ := B
      refine spec_ins (by omega) (fun i hi => ?_) (fun i hi hn => ?_)
      · by_cases e : i = 0
        · rw [e, k0]; omega
        · rw [hk _ (by omega)]
          have := b2 (i - 1) (by omega); omega
      · rw [hk _ (by omega)]
        by_cases e : i = n.size - 1
        · rw [e, show n.size - 1 - 1 = n.size - 2 by omega]; omega
        · have := b3 (i - 1) (by omega) (by omega); omega

theorem insertAt_length {α} (l : List α) (p : Nat) (x : α) (h : p ≤ l.length) : (insertAt l p x).length = l.length + 1 := by
  simp [insertAt]; omega

theorem insertAt_map {α β} (f : α → β) (l : List α) (p : Nat) (x : α) : (insertAt l p x).map f = insertAt (l.map f) p (f x) := by
  simp [insertAt, List.map_take, List.map_drop]

theorem insertAt_end {α} (l : List α) (x : α) : insertAt l l.length x = l ++ [x] := by simp [insertAt]

/-- `putkeyAt` inserts the key, if that is the place for it. -/
theorem Keys.putkeyAt_spec {n : Keys} (h : n.Wf) {key : Int} {p : Nat} (hp : (Where.ins p).Spec n.list key) :
    (n.putkeyAt key p).Wf ∧ (n.putkeyAt key p).list = insertAt n.list p key := by
  obtain ⟨h1, h2, h3⟩ := hp
  rw [Keys.list_length] at h1
  unfold Keys.putkeyAt
  by_cases hp0 : p = 0
  · subst hp0
    rw [if_pos rfl]
    by_cases hn : n.size = 0
    · rw [if_pos hn]
      have hw : Keys.Wf { n with first := key, size := n.size + 1 } := ⟨h.one, fun hc => by have := h.len hc; show n.offs.length = n.size + 1 - 1; omega⟩
      refine ⟨hw, ?_⟩
      rw [Keys.list_nil hn]
      simp [Keys.list, hn, insertAt, Keys.keyAt]
    · rw [if_neg hn]
      cases hc : n.consecutive with
      | true =>
        rw [if_pos rfl]
        have hw : Keys.Wf ⟨n.size + 1, key, (List.range n.size).map fun (i : Nat) => n.first - key + (i : Int), false, n.step⟩ := ⟨by simp, by simp⟩
        refine ⟨hw, ?_⟩
        rw [Keys.list_offs hw rfl (by simp), Keys.list_consec h hc]
        simp only [insertAt, List.take_zero, List.nil_append, List.drop_zero, List.map_map]
        congr 1
        apply List.map_congr_left
        intro i _
        simp only [Function.comp]; omega
      | false =>
        rw [if_neg (by simp)]
        have hl := h.len hc
        have hw : Keys.Wf ⟨n.size + 1, key, (n.first - key) :: n.offs.map fun o => o + (n.first - key), false, n.step⟩ := ⟨by simp, by simp; omega⟩
        refine ⟨hw, ?_⟩
        rw [Keys.list_offs hw rfl (by simp), Keys.list_offs h hc (by omega)]
        simp only [insertAt, List.take_zero, List.nil_append, List.drop_zero, List.map_cons, List.map_map]
        congr 1
        congr 1
        · omega
        · apply List.map_congr_left
          intro i _
          simp only [Function.comp]; omega
  · rw [if_neg hp0]
    cases hc : n.consecutive with
    | true =>
      have hk := Keys.list_consec h hc
      have hkk : ∀ i : Nat, i < n.size → n.list[i]? = some (n.first + (i : Int)) := fun i hi => by
        rw [hk, List.getElem?_map, List.getElem?_range hi]; rfl
      have hps : p = n.size := by
        rcases Nat.lt_or_ge p n.size with hlt | hge
        · have e1 := h2 (n.first + ((p - 1 : Nat) : Int)) (mem_take_iff.2 ⟨p - 1, by omega, hkk _ (by omega)⟩)
          have e2 := h3 (n.first + (p : Int)) (mem_drop_iff.2 ⟨p, by omega, hkk _ (by omega)⟩)
          omega
        · omega
      subst hps
      rw [if_pos rfl]
      have e1 := h2 (n.first + ((n.size - 1 : Nat) : Int)) (mem_take_iff.2 ⟨n.size - 1, by omega, hkk _ (by omega)⟩)
      by_cases hd : (n.size : Int) ≠ key - n.first
      · rw [if_pos hd]
        have hset : ((List.range (n.size - 1)).map (fun (i : Nat) => (i : Int) + 1) ++ [0]).set (n.size - 1) (key - n.first) =
            (List.range (n.size - 1)).map (fun (i : Nat) => (i : Int) + 1) ++ [key - n.first] := by
          rw [List.set_append_right _ _ (by simp)]
          simp
        rw [hset]
        have hw : Keys.Wf ⟨n.size + 1, n.first, (List.range (n.size - 1)).map (fun (i : Nat) => (i : Int) + 1) ++ [key - n.first], false, n.step⟩ :=
          ⟨by simp, by simp; omega⟩
        refine ⟨hw, ?_⟩
        rw [Keys.list_offs hw rfl (by simp)]
        have : insertAt n.list n.size key = n.list ++ [key] := by
          have := insertAt_end n.list key
          rwa [Keys.list_length] at this
        rw [this, hk]
        have hr : (List.range n.size).map (fun (i : Nat) => n.first + (i : Int)) = n.first :: (List.range (n.size - 1)).map (fun (i : Nat) => n.first + ((i : Int) + 1)) := by
          obtain ⟨s, hs⟩ : ∃ s, n.size = s + 1 := ⟨n.size - 1, by omega⟩
          rw [hs, List.range_succ_eq_map]
          simp
        rw [hr]
        simp only [List.map_append, List.map_map, List.cons_append, List.map_cons, List.map_nil]
        congr 1
        congr 1
        congr 1
        omega
      · rw [if_neg hd]
        have hw : Keys.Wf { n with size := n.size + 1 } := ⟨h.one, by simp [hc]⟩
        refine ⟨by simpa [hc] using hw, ?_⟩
        have : insertAt n.list n.size key = n.list ++ [key] := by
          have := insertAt_end n.list key
          rwa [Keys.list_length] at this
        rw [this, hk]
        have hl := Keys.list_consec hw hc
        refine Eq.trans (by simpa [hc] using hl) ?_
        show (List.range (n.size + 1)).map (fun (i : Nat) => n.first + (i : Int)) = _
        rw [List.range_succ]
        simp
        omega
    | false =>
      rw [if_neg (by simp)]
      have hl := h.len hc
      have hw : Keys.Wf ⟨n.size + 1, n.first, insertAt n.offs (p - 1) (key - n.first), false, n.step⟩ :=
        ⟨by simp, fun _ => by
          show (insertAt n.offs (p - 1) (key - n.first)).length = _
          rw [insertAt_length _ _ _ (by omega)]
          show _ = n.size + 1 - 1
          omega⟩
      refine ⟨hw, ?_⟩
      rw [Keys.list_offs hw rfl (by simp), Keys.list_offs h hc (by omega)]
      show n.first :: (insertAt n.offs (p - 1) (key - n.first)).map (n.first + ·) = _
      rw [insertAt_map]
      obtain ⟨q, rfl⟩ : ∃ q, p = q + 1 := ⟨p - 1, by omega⟩
      simp only [insertAt, Nat.add_sub_cancel, List.take_succ_cons, List.drop_succ_cons, List.cons_append]
      congr 3
      omega

theorem Keys.keyAt_take (n : Keys) (s k i : Nat) (hi : i ≤ k) : Keys.keyAt { n with size := s, offs := n.offs.take k } i = n.keyAt i := by
  obtain ⟨sz, f, os, c, st⟩ := n
  unfold Keys.keyAt
  cases c with
  | true => rfl
  | false =>
    simp only [Bool.false_eq_true, if_false]
    by_cases h : i > 0
    · rw [if_pos h, if_pos h]
      congr 1
      simp only [List.getD]
      rw [List.getElem?_take, if_pos (by omega)]
    · rw [if_neg h, if_neg h]

/-- The two halves. -/
theorem Keys.split_spec {n : Keys} (h : n.Wf) (hs : n.list.Pairwise (· < ·)) {min : Nat} (hm : 0 < min) (hn : n.size = 2 * min) :
    ((n.split (2 * min) min).1.Wf ∧ (n.split (2 * min) min).1.list = n.list.take min) ∧
    ((n.split (2 * min) min).2.Wf ∧ (n.split (2 * min) min).2.list = n.list.drop min) := by
  have lt := fun {i j} => @Keys.keyAt_lt n hs i j
  refine ⟨?_, ?_⟩
  · have hw : (n.split (2 * min) min).1.Wf := ⟨h.one, fun hc => by
      have := h.len hc
      show (n.offs.take (min - 1)).length = min - 1
      rw [List.length_take]; omega⟩
    refine ⟨hw, ?_⟩
    apply List.ext_getElem
    · simp [Keys.split]; omega
    · intro i h1 h2
      simp at h1 h2
      rw [Keys.list_getElem, List.getElem_take, Keys.list_getElem]
      have h1' : i < min := h1
      exact Keys.keyAt_take n _ _ _ (by omega)
  · unfold Keys.split
    simp only
    cases hc : n.consecutive with
    | true =>
      rw [if_pos rfl]
      have hw : Keys.Wf ⟨min, n.first + min, [], true, 1⟩ := ⟨by simp, by simp⟩
      refine ⟨hw, ?_⟩
      rw [Keys.list_consec hw rfl, Keys.list_consec h hc, hn]
      apply List.ext_getElem
      · simp; omega
      · intro i h1 h2
        simp only [List.getElem_map, List.getElem_drop, List.getElem_range]
        omega
    | false =>
      rw [if_neg (by simp)]
      have hl := h.len hc
      have hk : ∀ i : Nat, 0 < i → n.keyAt i = n.first + n.offs.getD (i - 1) 0 := fun i hi => by
        rw [Keys.keyAt, if_neg (by simp [hc]), if_pos hi]
      have hd : ∀ i, (hi : i < (n.list.drop min).length) → (n.list.drop min)[i] = n.first + n.offs.getD (min + i - 1) 0 := by
        intro i hi
        rw [List.getElem_drop, Keys.list_getElem, hk _ (by omega)]
      by_cases hcon : n.offs.getD (2 * min - 2) 0 - n.offs.getD (min - 1) 0 + 1 = min
      · rw [if_pos hcon]
        have hw : Keys.Wf ⟨min, n.first + n.offs.getD (min - 1) 0, [], true, 1⟩ := ⟨by simp, by simp⟩
        refine ⟨hw, ?_⟩
        rw [Keys.list_consec hw rfl]
        apply List.ext_getElem
        · simp; omega
        · intro i h1 h2
          rw [hd]
          simp only [List.getElem_map, List.getElem_range]
          simp at h1
          -- integers strictly between
          have key : ∀ j, j < min → n.keyAt (min + j) ≥ n.keyAt min + j := by
            intro j
            induction j with
            | zero => intro _; simp
            | succ j ih =>
              intro hj
              have a := ih (by omega)
              have b := @lt (min + j) (min + (j + 1)) (by omega) (by omega)
              omega
          have key2 : ∀ j, j < min → n.keyAt (2 * min - 1) ≥ n.keyAt (2 * min - 1 - j) + j := by
            intro j
            induction j with
            | zero => intro _; simp
            | succ j ih =>
              intro hj
              have a := ih (by omega)
              have b := @lt (2 * min - 1 - (j + 1)) (2 * min - 1 - j) (by omega) (by omega)
              omega
          have a := key i h1
          have b := key2 (min - 1 - i) (by omega)
          rw [show 2 * min - 1 - (min - 1 - i) = min + i by omega] at b
          rw [hk _ (by omega), hk _ (by omega)] at a b
          rw [show 2 * min - 1 - 1 = 2 * min - 2 by omega] at b
          omega
      · rw [if_neg hcon]
        have hw : Keys.Wf ⟨min, n.first + n.offs.getD (min - 1) 0,
            (List.range (min - 1)).map fun i => n.offs.getD (min + i) 0 - n.offs.getD (min - 1) 0, false, 1⟩ := ⟨by simp, by simp⟩
        refine ⟨hw, ?_⟩
        rw [Keys.list_offs hw rfl hm]
        apply List.ext_getElem
        · simp; omega
        · intro i h1 h2
          rw [hd]
          cases i with
          | zero => simp
          | succ i =>
            simp only [List.getElem_cons_succ, List.getElem_map, List.getElem_range]
            rw [show min + (i + 1) - 1 = min + i by omega]
            omega

theorem Keys.removeLast_spec {n : Keys} (h : n.Wf) : n.removeLast.Wf ∧ n.removeLast.list = n.list.take (n.size - 1) := by
  have hw : n.removeLast.Wf := ⟨h.one, fun hc => by
    have := h.len hc
    show (n.offs.take (n.size - 2)).length = n.size - 1 - 1
    rw [List.length_take]; omega⟩
  refine ⟨hw, ?_⟩
  apply List.ext_getElem
  · simp [Keys.removeLast]
  · intro i h1 h2
    simp at h1 h2
    rw [Keys.list_getElem, List.getElem_take, Keys.list_getElem]
    have h1' : i < n.size - 1 := h1
    exact Keys.keyAt_take n _ _ _ (by omega)

theorem Keys.removeFirst_spec {n : Keys} (h : n.Wf) : n.removeFirst.Wf ∧ n.removeFirst.list = n.list.drop 1 := by
  unfold Keys.removeFirst
  by_cases h1 : n.size > 1
  · rw [if_pos h1]
    cases hc : n.consecutive with
    | true =>
      rw [if_pos rfl]
      have hw : Keys.Wf { n with size := n.size - 1, first := n.first + 1 } := ⟨h.one, by simp [hc]⟩
      have hl := Keys.list_consec hw hc
      refine ⟨by simpa [hc] using hw, Eq.trans (by simpa [hc] using hl) ?_⟩
      rw [Keys.list_consec h hc]
      show (List.range (n.size - 1)).map (fun (i : Nat) => n.first + 1 + (i : Int)) = _
      apply List.ext_getElem
      · simp
      · intro i h1 h2
        simp only [List.getElem_map, List.getElem_drop, List.getElem_range]
        omega
    | false =>
      rw [if_neg (by simp)]
      have hl := h.len hc
      have hw : Keys.Wf ⟨n.size - 1, n.first + n.offs.getD 0 0, n.offs.tail.map fun o => o - n.offs.getD 0 0, false, n.step⟩ :=
        ⟨by simp, fun _ => by
          show (n.offs.tail.map fun o => o - n.offs.getD 0 0).length = n.size - 1 - 1
          simp; omega⟩
      refine ⟨hw, ?_⟩
      rw [Keys.list_offs hw rfl (by show 0 < n.size - 1; omega), Keys.list_offs h hc (by omega)]
      cases ho : n.offs with
      | nil => rw [ho] at hl; simp at hl; omega
      | cons o os =>
        simp
        intro a _; omega
  · rw [if_neg h1]
    have hw : Keys.Wf { n with size := n.size - 1 } := ⟨h.one, fun hc => by
      have := h.len hc
      show n.offs.length = n.size - 1 - 1
      omega⟩
    refine ⟨hw, ?_⟩
    rw [Keys.list_nil (by show n.size - 1 = 0; omega)]
    symm
    rw [List.drop_eq_nil_iff]
    simp; omega

theorem Keys.first_eq {n : Keys} (hn : 0 < n.size) : n.list[0]? = some n.first := by
  rw [Keys.list_getElem? _ hn]; simp [Keys.keyAt]

theorem Keys.largest_eq {n : Keys} (hn : 0 < n.size) : n.list[n.size - 1]? = some n.largest := by
  rw [Keys.list_getElem? _ (by omega)]
  congr 1
  unfold Keys.keyAt Keys.largest
  by_cases h1 : n.size = 1
  · simp [h1]
  · rw [if_neg h1]
    cases hc : n.consecutive with
    | true => simp; rw [Int.natCast_sub (by omega)]; rfl
    | false =>
      simp only [Bool.false_eq_true, if_false]
      rw [if_pos (by omega)]
      rfl

end Trident.BTree
