import Verif.Ml.BatchQuery
import Verif.Ml.BatchProofs
/-!
Lemmas on the searches: in the range from `lo` to `E`, where `E` is searched as well and can have any term.
-/
namespace Trident.Batch

/-- The terms at an offset, in a range that is sorted, except for its end. -/
structure Seg (raw : List Nat) (off : Nat) (v : Nat → Nat) (lo E : Nat) : Prop where
  reads : ∀ i, lo ≤ i → i ≤ E → read5 raw (i * 15 + off) = some (v i)
  sorted : ∀ i j, lo ≤ i → i ≤ j → j < E → v i ≤ v j

/-- The first occurrence is found. -/
theorem search_first {raw : List Nat} {off x lo E m : Nat} {v : Nat → Nat} (h : Seg raw off v lo E) (hm : lo ≤ m ∧ m < E) (hx : v m = x) (hmin : ∀ i, lo ≤ i → i < E → v i = x → m ≤ i)
    (f start hi : Nat) (best : Option Nat) (hf : hi - start ≤ f) (hlo : lo ≤ start) (hhi : hi ≤ E + 1) (hs : start ≤ m) (hinv : m < hi ∨ (hi = m ∧ best = some m)) :
    search raw off x false f start hi best = some (some m) := by
  induction f generalizing start hi best with
  | zero =>
    rcases hinv with g | ⟨_, g⟩
    · omega
    · rw [search, g]
  | succ f ih =>
    simp only [search]
    split
    · rename_i hlt
      generalize hmid : start + (hi - 1 - start) / 2 = mid
      have hE : mid < E := by omega
      rw [h.reads mid (by omega) (by omega)]
      simp only
      split
      · rename_i ht
        have hl : mid < m := by
          rcases Nat.lt_or_ge mid m with g | g
          · exact g
          · have := h.sorted m mid hm.1 g hE; omega
        exact ih (mid + 1) hi best (by omega) (by omega) hhi (by omega) hinv
      · split
        · rename_i ht
          have hl : m < mid := by
            rcases Nat.lt_or_ge m mid with g | g
            · exact g
            · have := h.sorted mid m (by omega) g hm.2; omega
          exact ih start mid best (by omega) hlo (by omega) hs (Or.inl hl)
        · have hmm := hmin mid (by omega) hE (by omega)
          simp only [Bool.false_eq_true, if_false]
          refine ih start mid (some mid) (by omega) hlo (by omega) hs ?_
          rcases Nat.eq_or_lt_of_le hmm with g | g
          · exact Or.inr ⟨g.symm, by rw [g]⟩
          · exact Or.inl g
    · rename_i hge
      rcases hinv with g | ⟨_, g⟩
      · omega
      · rw [g]

/-- The last occurrence is found, or the end is taken for it if it follows and has the term as well. -/
theorem search_last {raw : List Nat} {off x lo E M : Nat} {v : Nat → Nat} (h : Seg raw off v lo E) (hlx : v lo = x) (hM : lo ≤ M ∧ M < E) (hx : v M = x)
    (hmax : ∀ i, lo ≤ i → i < E → v i = x → i ≤ M) (f start hi : Nat) (best : Option Nat) (hf : hi - start ≤ f) (hlo : lo ≤ start) (hhi : hi ≤ E + 1)
    (hinv : (start ≤ M ∧ M < hi) ∨ (best = some M ∧ (start = M + 1 ∨ hi ≤ start)) ∨ (best = some E ∧ M + 1 = E ∧ hi ≤ start)) :
    search raw off x true f start hi best = some (some M) ∨ (search raw off x true f start hi best = some (some E) ∧ M + 1 = E) := by
  induction f generalizing start hi best with
  | zero =>
    rcases hinv with g | ⟨g, _⟩ | ⟨g, g', _⟩
    · omega
    · exact Or.inl (by rw [search, g])
    · exact Or.inr ⟨by rw [search, g], g'⟩
  | succ f ih =>
    simp only [search]
    split
    · rename_i hlt
      generalize hmid : start + (hi - 1 - start) / 2 = mid
      have hr := h.reads mid (by omega) (by omega)
      rw [hr]
      simp only
      rcases hinv with ⟨g1, g2⟩ | ⟨g1, g2⟩ | ⟨_, _, g⟩
      · have hE : mid < E := by omega
        have hge : x ≤ v mid := by have := h.sorted lo mid (Nat.le_refl _) (by omega) hE; omega
        rw [if_neg (by omega)]
        split
        · rename_i ht
          have hl : M < mid := by
            rcases Nat.lt_or_ge M mid with g | g
            · exact g
            · have := h.sorted mid M (by omega) g hM.2; omega
          exact ih start mid best (by omega) hlo (by omega) (Or.inl ⟨g1, hl⟩)
        · have hle := hmax mid (by omega) hE (by omega)
          simp only [if_true]
          refine ih (mid + 1) hi (some mid) (by omega) (by omega) hhi ?_
          rcases Nat.eq_or_lt_of_le hle with e | e
          · exact Or.inr (Or.inl ⟨by rw [e], Or.inl (by omega)⟩)
          · exact Or.inl ⟨by omega, g2⟩
      · have g2 : start = M + 1 := by omega
        rcases Nat.lt_or_ge mid E with hE | hE
        · have hgt : x < v mid := by
            have h1 := h.sorted lo mid (Nat.le_refl _) (by omega) hE
            rcases Nat.lt_or_ge x (v mid) with g | g
            · exact g
            · have := hmax mid (by omega) hE (by omega); omega
          rw [if_neg (by omega), if_pos hgt]
          exact ih start mid best (by omega) hlo (by omega) (Or.inr (Or.inl ⟨g1, Or.inl g2⟩))
        · have hme : mid = E := by omega
          split
          · exact ih (mid + 1) hi best (by omega) (by omega) hhi (Or.inr (Or.inl ⟨g1, Or.inr (by omega)⟩))
          · split
            · exact ih start mid best (by omega) hlo (by omega) (Or.inr (Or.inl ⟨g1, Or.inl g2⟩))
            · simp only [if_true]
              exact ih (mid + 1) hi (some mid) (by omega) (by omega) hhi (Or.inr (Or.inr ⟨by rw [hme], by omega, by omega⟩))
      · omega
    · rename_i hge
      rcases hinv with g | ⟨g, _⟩ | ⟨g, g', _⟩
      · omega
      · exact Or.inl (by rw [g])
      · exact Or.inr ⟨by rw [g], g'⟩

/-- A term that is not there is not found if the end has the term 0. -/
theorem search_absent {raw : List Nat} {off x n : Nat} {v : Nat → Nat} (h : Seg raw off v 0 n) (hn : 0 < n) (h0 : v n = 0) (hx : ∀ i, i < n → v i ≠ x)
    (f start hi : Nat) (hf : hi - start ≤ f) (hhi : hi ≤ n + 1) (hinv : start ≤ n → ∀ i, i < start → v i < x) : search raw off x false f start hi none = some none := by
  induction f generalizing start hi with
  | zero => rfl
  | succ f ih =>
    simp only [search]
    split
    · rename_i hlt
      generalize hmid : start + (hi - 1 - start) / 2 = mid
      rw [h.reads mid (by omega) (by omega)]
      simp only
      split
      · rename_i ht
        refine ih (mid + 1) hi (by omega) hhi fun hs i hi' => ?_
        have := h.sorted i mid (by omega) (by omega) (by omega)
        omega
      · rename_i ht1
        split
        · exact ih start mid (by omega) (by omega) hinv
        · rename_i ht2
          exfalso
          rcases Nat.lt_or_ge mid n with g | g
          · exact hx mid g (by omega)
          · have e : mid = n := by omega
            have es : start = n := by omega
            have := hinv (by omega) (n - 1) (by omega)
            rw [e, h0] at ht1
            omega
    · rfl

/-- The part of the range that has the term. -/
theorem narrow_eq {raw : List Nat} {off x lo E : Nat} {v : Nat → Nat} (h : Seg raw off v lo E) {k : Nat} (hk : lo ≤ k ∧ k < E) (hx : v k = x) :
    ∃ a b, narrow raw off x lo E = some (a, b, true) ∧ lo ≤ a ∧ b ≤ E ∧ ∀ i, (a ≤ i ∧ i < b) ↔ (lo ≤ i ∧ i < E ∧ v i = x) := by
  obtain ⟨m, hm1, hm2, hmx, hmin⟩ : ∃ m, lo ≤ m ∧ m < E ∧ v m = x ∧ ∀ i, lo ≤ i → i < E → v i = x → m ≤ i := by
    have : ∀ d, ∀ k, k - lo = d → lo ≤ k → k < E → v k = x → ∃ m, lo ≤ m ∧ m < E ∧ v m = x ∧ ∀ i, lo ≤ i → i < E → v i = x → m ≤ i := by
      intro d
      induction d using Nat.strongRecOn with
      | _ d ih =>
        intro k hd h1 h2 h3
        by_cases hex : ∃ i, lo ≤ i ∧ i < k ∧ v i = x
        · obtain ⟨i, g1, g2, g3⟩ := hex
          exact ih (i - lo) (by omega) i rfl g1 (by omega) g3
        · exact ⟨k, h1, h2, h3, fun i g1 g2 g3 => by
            rcases Nat.lt_or_ge i k with g | g
            · exact absurd ⟨i, g1, g, g3⟩ hex
            · exact g⟩
    exact this _ k rfl hk.1 hk.2 hx
  obtain ⟨M, hM1, hM2, hMx, hmax⟩ : ∃ M, m ≤ M ∧ M < E ∧ v M = x ∧ ∀ i, m ≤ i → i < E → v i = x → i ≤ M := by
    have : ∀ d, ∀ k, E - k = d → m ≤ k → k < E → v k = x → ∃ M, m ≤ M ∧ M < E ∧ v M = x ∧ ∀ i, m ≤ i → i < E → v i = x → i ≤ M := by
      intro d
      induction d using Nat.strongRecOn with
      | _ d ih =>
        intro k hd h1 h2 h3
        by_cases hex : ∃ i, k < i ∧ i < E ∧ v i = x
        · obtain ⟨i, g1, g2, g3⟩ := hex
          exact ih (E - i) (by omega) i rfl (by omega) g2 g3
        · exact ⟨k, h1, h2, h3, fun i g1 g2 g3 => by
            rcases Nat.lt_or_ge k i with g | g
            · exact absurd ⟨i, g, g2, g3⟩ hex
            · exact g⟩
    exact this _ m rfl (Nat.le_refl _) hm2 hmx
  have hff : findFirst raw off x lo E = some (some m) :=
    search_first h ⟨hm1, hm2⟩ hmx hmin _ _ _ _ (Nat.le_refl _) (Nat.le_refl _) (Nat.le_refl _) hm1 (Or.inl (by omega))
  have hseg : Seg raw off v m E := ⟨fun i g1 g2 => h.reads i (by omega) g2, fun i j g1 g2 g3 => h.sorted i j (by omega) g2 g3⟩
  have hall : ∀ i, (m ≤ i ∧ i < M + 1) ↔ (lo ≤ i ∧ i < E ∧ v i = x) := by
    intro i
    refine ⟨fun ⟨g1, g2⟩ => ⟨by omega, by omega, ?_⟩, fun ⟨g1, g2, g3⟩ => ?_⟩
    · have h1 := h.sorted m i hm1 g1 (by omega)
      have h2 := h.sorted i M (by omega) (by omega) hM2
      omega
    · have h1 := hmin i g1 g2 g3
      have h2 := hmax i h1 g2 g3
      omega
  have hlast := search_last hseg hmx ⟨hM1, hM2⟩ hMx hmax _ m (E + 1) none (Nat.le_refl (E + 1 - m)) (Nat.le_refl _) (Nat.le_refl _) (Or.inl ⟨hM1, by omega⟩)
  unfold narrow
  rw [hff]
  simp only
  rcases hlast with g | ⟨g, g'⟩
  · rw [show findLast raw off x m E = some (some M) from g]
    simp only
    rw [if_neg_or M E hM2]
    exact ⟨m, M + 1, rfl, hm1, by omega, hall⟩
  · rw [show findLast raw off x m E = some (some E) from g]
    simp only [Nat.lt_irrefl, if_false]
    exact ⟨m, E, rfl, hm1, Nat.le_refl _, fun i => by have := hall i; rwa [g'] at this⟩
where
  if_neg_or (M E : Nat) (h : M < E) : (if M < E then M + 1 else E) = M + 1 := by rw [if_pos h]

/-- What is found has the term. -/
theorem search_sound {raw : List Nat} {off x lo E : Nat} {v : Nat → Nat} (hr : ∀ i, lo ≤ i → i ≤ E → read5 raw (i * 15 + off) = some (v i)) (last : Bool) (f start hi : Nat) (best : Option Nat)
    (hlo : lo ≤ start) (hhi : hi ≤ E + 1) :
    search raw off x last f start hi best = some best ∨ ∃ m, search raw off x last f start hi best = some (some m) ∧ lo ≤ m ∧ m ≤ E ∧ v m = x := by
  induction f generalizing start hi best with
  | zero => exact Or.inl rfl
  | succ f ih =>
    simp only [search]
    split
    · rename_i hlt
      generalize hmid : start + (hi - 1 - start) / 2 = mid
      rw [hr mid (by omega) (by omega)]
      simp only
      split
      · exact ih (mid + 1) hi best (by omega) hhi
      · split
        · exact ih start mid best hlo (by omega)
        · split
          · rcases ih (mid + 1) hi (some mid) (by omega) hhi with g | g
            · exact Or.inr ⟨mid, g, by omega, by omega, by omega⟩
            · exact Or.inr g
          · rcases ih start mid (some mid) hlo (by omega) with g | g
            · exact Or.inr ⟨mid, g, by omega, by omega, by omega⟩
            · exact Or.inr g
    · exact Or.inl rfl

/-- A term that is not in the range: nothing is left, even if the end has the term. -/
theorem narrow_absent {raw : List Nat} {off x lo E : Nat} {v : Nat → Nat} (hr : ∀ i, lo ≤ i → i ≤ E → read5 raw (i * 15 + off) = some (v i)) (hno : ∀ i, lo ≤ i → i < E → v i ≠ x) :
    narrow raw off x lo E = some (0, 0, false) ∨ narrow raw off x lo E = some (E, E, true) := by
  unfold narrow
  rcases search_sound hr (x := x) false (E + 1 - lo) lo (E + 1) none (Nat.le_refl _) (Nat.le_refl _) with e | ⟨m, e, h1, h2, h3⟩
  · rw [findFirst, e]; exact Or.inl rfl
  · rw [findFirst, e]
    have hm : m = E := by
      rcases Nat.eq_or_lt_of_le h2 with g | g
      · exact g
      · exact absurd h3 (hno m h1 g)
    subst hm
    have hl : findLast raw off x m m = some (some m) := by
      rw [findLast, show m + 1 - m = 1 by omega]
      simp only [search, Nat.lt_succ_self, if_true, show m + (m + 1 - 1 - m) / 2 = m by omega, hr m h1 (Nat.le_refl _), h3, Nat.lt_irrefl, if_false]
    refine Or.inr ?_
    simp only [hl, Nat.lt_irrefl, if_false]

/-- A term above all others is searched behind the last record. -/
theorem search_behind {raw : List Nat} {off x n : Nat} (hr : ∀ i, i < n → ∃ y, read5 raw (i * 15 + off) = some y ∧ y < x) (hn : read5 raw (n * 15 + off) = none) (last : Bool) (f start : Nat) (best : Option Nat)
    (hf : n + 1 - start ≤ f) (hs : start ≤ n) : search raw off x last f start (n + 1) best = none := by
  induction f generalizing start best with
  | zero => omega
  | succ f ih =>
    simp only [search]
    rw [if_pos (by omega)]
    generalize hmid : start + (n + 1 - 1 - start) / 2 = mid
    rcases Nat.eq_or_lt_of_le (show mid ≤ n by omega) with e | g
    · rw [e, hn]
    · obtain ⟨y, e, hy⟩ := hr mid g
      simp only [e, hy, if_true]
      exact ih (mid + 1) best (by omega) (by omega)

/-! ## The triples of a file -/

/-- The term at an offset. -/
def fld (off : Nat) (t : Triple) : Nat := if off = 0 then t.1 else if off = 5 then t.2.1 else t.2.2

/-- The term of the record with a number, 0 after the last. -/
def termAt (ts : List Triple) (off i : Nat) : Nat := match ts[i]? with
  | some t => fld off t
  | none => 0

/-- The file can be read up to one record after the last. -/
def Room (n : Nat) : Prop := 15 * n % 4096 ≠ 0 ∧ 15 * n % 4096 ≤ 4078

theorem Room.page {n : Nat} (h : Room n) : n * 15 + 18 ≤ pageEnd (15 * n) := by
  unfold Room at h
  unfold pageEnd
  rw [Nat.mul_comm n 15]
  generalize 15 * n = N at h ⊢
  have hd := Nat.div_add_mod N 4096
  have hq : (N + 4095) / 4096 = N / 4096 + 1 := by omega
  rw [hq]
  omega

theorem read_term {ts : List Triple} (hf : ∀ t ∈ ts, Fits t) (hr : Room ts.length) {off : Nat} (ho : off = 0 ∨ off = 5 ∨ off = 10) {i : Nat} (hi : i ≤ ts.length) :
    read5 (fileOf ts) (i * 15 + off) = some (termAt ts off i) := by
  have hp := hr.page
  have hpg : i * 15 + off + 8 ≤ pageEnd (fileOf ts).length := by rw [length_file]; omega
  rcases Nat.eq_or_lt_of_le hi with e | hlt
  · rw [read5, if_pos hpg, List.drop_eq_nil_of_le (by rw [length_file]; omega)]
    simp [termAt, e, number]
  · have hg := getAt_file (hf _ (List.getElem_mem hlt)) (List.getElem?_eq_getElem hlt) (by rw [length_file]; omega)
    have ht : termAt ts off i = fld off ts[i] := by simp [termAt, hlt]
    rw [ht]
    unfold getAt at hg
    split at hg
    · rename_i s p o h1 h2 h3
      injection hg with hg
      rcases ho with rfl | rfl | rfl
      · rw [Nat.add_zero, h1, ← hg]; rfl
      · rw [h2, ← hg]; rfl
      · rw [h3, ← hg]; rfl
    · cases hg

/-- The triples are in the order of the index, and no triple is there twice. -/
def SortedBy (order : Order) (ts : List Triple) : Prop :=
  ∀ (i j : Nat) (t u : Triple), i < j → ts[i]? = some t → ts[j]? = some u →
    fld order.offsets.1 t < fld order.offsets.1 u ∨ (fld order.offsets.1 t = fld order.offsets.1 u ∧
      (fld order.offsets.2.1 t < fld order.offsets.2.1 u ∨ (fld order.offsets.2.1 t = fld order.offsets.2.1 u ∧ fld order.offsets.2.2 t < fld order.offsets.2.2 u)))

theorem offsets_ok (order : Order) : (order.offsets.1 = 0 ∨ order.offsets.1 = 5 ∨ order.offsets.1 = 10) ∧ (order.offsets.2.1 = 0 ∨ order.offsets.2.1 = 5 ∨ order.offsets.2.1 = 10) ∧
    (order.offsets.2.2 = 0 ∨ order.offsets.2.2 = 5 ∨ order.offsets.2.2 = 10) := by
  cases order <;> decide

theorem sorted_terms {order : Order} {ts : List Triple} (h : SortedBy order ts) {i j : Nat} (hij : i < j) (hj : j < ts.length) :
    termAt ts order.offsets.1 i < termAt ts order.offsets.1 j ∨ (termAt ts order.offsets.1 i = termAt ts order.offsets.1 j ∧
      (termAt ts order.offsets.2.1 i < termAt ts order.offsets.2.1 j ∨ (termAt ts order.offsets.2.1 i = termAt ts order.offsets.2.1 j ∧ termAt ts order.offsets.2.2 i < termAt ts order.offsets.2.2 j))) := by
  have hi : i < ts.length := by omega
  have := h i j ts[i] ts[j] hij (List.getElem?_eq_getElem hi) (List.getElem?_eq_getElem hj)
  simpa [termAt, hi, hj] using this

/-- What the search returns, if some triple matches, or if the query has one constant. -/
theorem queryRange_eq {order : Order} {ts : List Triple} (hs : SortedBy order ts) (hf : ∀ t ∈ ts, Fits t) (hr : Room ts.length) {s p o : Option Nat} {x1 : Nat} (h1 : want s p o order.offsets.1 = some x1)
    (h23 : want s p o order.offsets.2.1 = none → want s p o order.offsets.2.2 = none)
    (hex : (∃ k, k < ts.length ∧ (∀ off ∈ [order.offsets.1, order.offsets.2.1, order.offsets.2.2], ∀ x, want s p o off = some x → termAt ts off k = x)) ∨ want s p o order.offsets.2.2 = none) :
    ∃ a b, queryRange (fileOf ts) order s p o = some (a, b) ∧
      ∀ i, (a ≤ i ∧ i < b) ↔ (i < ts.length ∧ ∀ off ∈ [order.offsets.1, order.offsets.2.1, order.offsets.2.2], ∀ x, want s p o off = some x → termAt ts off i = x) := by
  obtain ⟨ok1, ok2, ok3⟩ := offsets_ok order
  have hpos : 0 < ts.length := by
    have h0 := hr.1
    rcases Nat.eq_zero_or_pos ts.length with e | e
    · rw [e] at h0; simp at h0
    · exact e
  have key : ∀ {i j}, i < j → j < ts.length → _ := fun {i j} h h' => sorted_terms hs (i := i) (j := j) h h'
  generalize ho1 : order.offsets.1 = o1 at *
  generalize ho2 : order.offsets.2.1 = o2 at *
  generalize ho3 : order.offsets.2.2 = o3 at *
  have hoff : order.offsets = (o1, o2, o3) := by rw [← ho1, ← ho2, ← ho3]
  have seg1 : Seg (fileOf ts) o1 (termAt ts o1) 0 ts.length := ⟨fun i _ hi => read_term hf hr ok1 hi, fun i j _ hij hj => by
    rcases Nat.eq_or_lt_of_le hij with rfl | g
    · exact Nat.le_refl _
    · have := key g hj; omega⟩
  have hall : ∀ i, (∀ off ∈ [o1, o2, o3], ∀ x, want s p o off = some x → termAt ts off i = x) ↔
      (termAt ts o1 i = x1 ∧ (∀ x, want s p o o2 = some x → termAt ts o2 i = x) ∧ ∀ x, want s p o o3 = some x → termAt ts o3 i = x) := by
    intro i
    simp only [List.mem_cons, List.not_mem_nil, or_false, forall_eq_or_imp, forall_eq, h1, Option.some.injEq, forall_eq']
  simp only [hall] at hex ⊢
  simp only [queryRange, hoff, h1, file_records]
  by_cases hin : ∃ k, k < ts.length ∧ termAt ts o1 k = x1
  · obtain ⟨k1, hk1, hk1x⟩ := hin
    obtain ⟨a, b, e1, ha, hb, hab⟩ := narrow_eq seg1 ⟨Nat.zero_le _, hk1⟩ hk1x
    rw [e1]
    simp only
    rcases h2 : want s p o o2 with _ | x2
    · have h3 := h23 h2
      simp only [h3]
      exact ⟨a, b, rfl, fun i => by rw [hab i]; simp⟩
    · simp only [h2, Option.some.injEq, forall_eq'] at hex ⊢
      by_cases hin2 : ¬ ∃ k, k < ts.length ∧ termAt ts o1 k = x1 ∧ termAt ts o2 k = x2
      · have h3 : want s p o o3 = none := by
          rcases hex with ⟨k, g1, g2, g3, _⟩ | g
          · exact absurd ⟨k, g1, g2, g3⟩ hin2
          · exact g
        have hnone : ∀ i, ¬ (i < ts.length ∧ termAt ts o1 i = x1 ∧ termAt ts o2 i = x2 ∧ ∀ x, want s p o o3 = some x → termAt ts o3 i = x) := fun i ⟨g1, g2, g3, _⟩ => hin2 ⟨i, g1, g2, g3⟩
        rcases narrow_absent (x := x2) (lo := a) (E := b) (v := termAt ts o2) (fun i _ hi => read_term hf hr ok2 (by omega)) (fun i g1 g2 g3 => by
            have := (hab i).1 ⟨g1, g2⟩
            exact hin2 ⟨i, this.2.1, this.2.2, g3⟩) with e | e
        · rw [e]
          exact ⟨0, 0, rfl, fun i => ⟨fun g => by omega, fun g => absurd g (hnone i)⟩⟩
        · simp only [e, third, h3]
          exact ⟨b, b, rfl, fun i => ⟨fun g => by omega, fun g => absurd (by simpa only [h3] using g) (hnone i)⟩⟩
      have hin2 := Classical.not_not.1 hin2
      obtain ⟨k, hk, hkx1, hkx2, hkx3⟩ : ∃ k, k < ts.length ∧ termAt ts o1 k = x1 ∧ termAt ts o2 k = x2 ∧ ∀ x, want s p o o3 = some x → termAt ts o3 k = x := by
        rcases hex with g | g
        · exact g
        · obtain ⟨k, g1, g2, g3⟩ := hin2
          exact ⟨k, g1, g2, g3, by simp [g]⟩
      have hkab := (hab k).2 ⟨Nat.zero_le _, hk, hkx1⟩
      have seg2 : Seg (fileOf ts) o2 (termAt ts o2) a b := ⟨fun i _ hi => read_term hf hr ok2 (by omega), fun i j hi hij hj => by
        rcases Nat.eq_or_lt_of_le hij with rfl | g
        · exact Nat.le_refl _
        · have := key g (by omega)
          have e1 := ((hab i).1 ⟨hi, by omega⟩).2.2
          have e2 := ((hab j).1 ⟨by omega, hj⟩).2.2
          omega⟩
      obtain ⟨a', b', e2, ha', hb', hab'⟩ := narrow_eq seg2 hkab hkx2
      rw [e2]
      simp only
      have hboth : ∀ i, (a' ≤ i ∧ i < b') ↔ (i < ts.length ∧ termAt ts o1 i = x1 ∧ termAt ts o2 i = x2) := by
        intro i
        rw [hab' i]
        refine ⟨fun ⟨g1, g2, g3⟩ => ?_, fun ⟨g1, g2, g3⟩ => ?_⟩
        · have := (hab i).1 ⟨g1, g2⟩; exact ⟨this.2.1, this.2.2, g3⟩
        · have := (hab i).2 ⟨Nat.zero_le _, g1, g2⟩; exact ⟨this.1, this.2, g3⟩
      rcases h3 : want s p o o3 with _ | x3
      · simp only [third]
        exact ⟨a', b', rfl, fun i => by rw [hboth i]; simp⟩
      · simp only [h3, Option.some.injEq, forall_eq'] at hkx3 ⊢
        have hkab' := (hboth k).2 ⟨hk, hkx1, hkx2⟩
        have strict : ∀ i j, a' ≤ i → i < j → j < b' → termAt ts o3 i < termAt ts o3 j := by
          intro i j hi hij hj
          have := key hij (by omega)
          have e1 := ((hboth i).1 ⟨hi, by omega⟩).2
          have e2 := ((hboth j).1 ⟨by omega, hj⟩).2
          omega
        have seg3 : Seg (fileOf ts) o3 (termAt ts o3) a' b' := ⟨fun i _ hi => read_term hf hr ok3 (by omega), fun i j hi hij hj => by
          rcases Nat.eq_or_lt_of_le hij with rfl | g
          · exact Nat.le_refl _
          · exact Nat.le_of_lt (strict i j hi g hj)⟩
        have huniq : ∀ i, a' ≤ i → i < b' → termAt ts o3 i = x3 → i = k := by
          intro i g1 g2 g3
          rcases Nat.lt_trichotomy i k with g | g | g
          · have := strict i k g1 g hkab'.2; omega
          · exact g
          · have := strict k i hkab'.1 g g2; omega
        have hff : findFirst (fileOf ts) o3 x3 a' b' = some (some k) :=
          search_first seg3 hkab' hkx3 (fun i g1 g2 g3 => Nat.le_of_eq (huniq i g1 g2 g3).symm) _ _ _ _ (Nat.le_refl _) (Nat.le_refl _) (Nat.le_refl _) hkab'.1 (Or.inl (by omega))
        simp only [third, hff]
        refine ⟨k, k + 1, rfl, fun i => ⟨fun g => ?_, fun ⟨g1, g2, g3, g4⟩ => ?_⟩⟩
        · have : i = k := by omega
          subst this
          exact ⟨hk, hkx1, hkx2, hkx3⟩
        · have hi := (hboth i).2 ⟨g1, g2, g3⟩
          have := huniq i hi.1 hi.2 g4
          omega
  · have hab : findFirst (fileOf ts) o1 x1 0 ts.length = some none :=
      search_absent seg1 hpos (by simp [termAt]) (fun i hi e => hin ⟨i, hi, e⟩) _ _ _ (Nat.le_refl _) (Nat.le_refl _) (fun _ i hi => by omega)
    simp only [narrow, hab]
    refine ⟨0, 0, rfl, fun i => ⟨fun g => by omega, fun ⟨g1, g2, _⟩ => absurd ⟨i, g1, g2⟩ hin⟩⟩

end Trident.Batch
