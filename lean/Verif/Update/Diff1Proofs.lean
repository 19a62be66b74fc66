import Verif.Update.Diff1
/-!
Lemmas on updates with one column.
-/
namespace Trident.Diff1

/-- The triple with a value in a field. -/
def withValue (t : T3) (pos : Nat) (v : Int) : T3 := if pos = 0 then (v, t.2.1, t.2.2) else if pos = 1 then (t.1, v, t.2.2) else (t.1, t.2.1, v)

/-- The triples of an update. -/
def added (t : T3) (vs : List Nat) (pos : Nat) : List T3 := vs.map fun v : Nat => withValue t pos (v : Int)

/-- A pattern for one term. -/
def fits (x term : Int) : Bool := x == -1 || x == term

/-- A pattern for a triple. -/
def agrees (first second third : Int) (t : T3) : Bool := fits first t.1 && (fits second t.2.1 && fits third t.2.2)

/-- The terms of a triple in the order of an index. -/
def inOrder (idx : Nat) (t : T3) : T3 := permute idx t.1 t.2.1 t.2.2

/-! ## Search -/

theorem bsearch_spec {l : List Int} (hs : l.Pairwise (· < ·)) (v : Int) (f s e : Nat) (hf : e - s ≤ f) (he : e ≤ l.length) :
    match bsearch l v f s e with
    | some m => m < l.length ∧ l[m]? = some v
    | none => ∀ i, s ≤ i → i < e → l[i]? ≠ some v := by
  induction f generalizing s e with
  | zero => exact fun i h1 h2 => by omega
  | succ f ih =>
    simp only [bsearch]
    by_cases hlt : s < e
    · rw [if_pos hlt]
      generalize hm : s + (e - s) / 2 = m
      have hml : m < l.length := by omega
      have hg : l.getD m 0 = l[m] := by simp [List.getD, hml]
      have hmono : ∀ i j (hi : i < l.length) (hj : j < l.length), i < j → l[i] < l[j] := fun i j hi hj hij => List.pairwise_iff_getElem.1 hs i j hi hj hij
      rw [hg]
      by_cases h1 : l[m] < v
      · rw [if_pos h1]
        have := ih (m + 1) e (by omega) he
        split at this
        · exact this
        · rename_i hk
          intro i hi1 hi2 e'
          rcases Nat.lt_or_ge m i with g | g
          · exact this i (by omega) hi2 e'
          · obtain ⟨hi, rfl⟩ := List.getElem?_eq_some_iff.1 e'
            rcases Nat.eq_or_lt_of_le g with rfl | g
            · omega
            · have := hmono i m hi hml g; omega
      · rw [if_neg h1]
        by_cases h2 : l[m] > v
        · rw [if_pos h2]
          have := ih s m (by omega) (by omega)
          split at this
          · exact this
          · rename_i hk
            intro i hi1 hi2 e'
            rcases Nat.lt_or_ge i m with g | g
            · exact this i hi1 g e'
            · obtain ⟨hi, rfl⟩ := List.getElem?_eq_some_iff.1 e'
              rcases Nat.eq_or_lt_of_le g with rfl | g
              · omega
              · have := hmono m i hml hi g; omega
        · rw [if_neg h2]
          exact ⟨hml, by rw [List.getElem?_eq_getElem hml]; congr 1; omega⟩
    · rw [if_neg hlt]
      exact fun i h1 h2 => by omega

theorem posValue_spec {ix : Index} (hs : ix.values.Pairwise (· < ·)) (hl : ix.size = ix.values.length) (v : Int) :
    (v ∈ ix.values ∧ ix.posValue v < ix.size ∧ ix.values[ix.posValue v]? = some v ∧ ix.valueIn v = true) ∨ (v ∉ ix.values ∧ ix.posValue v = ix.size ∧ ix.valueIn v = false) := by
  have h := bsearch_spec hs v ix.size 0 ix.size (by omega) (by omega)
  unfold Index.posValue Index.valueIn
  split at h
  · rename_i m hm
    rw [hm]
    exact Or.inl ⟨List.mem_of_getElem? h.2, by rw [hl]; exact h.1, h.2, rfl⟩
  · rename_i hm
    rw [hm]
    refine Or.inr ⟨fun hv => ?_, rfl, rfl⟩
    obtain ⟨i, hi, e⟩ := List.getElem_of_mem hv
    exact h i (Nat.zero_le _) (by omega) (by rw [List.getElem?_eq_getElem hi, e])

/-! ## Iterators -/

theorem drain_eq (it : Itr) (h : it.noseccol = false) : it.all = it.rest.map (withValue (it.key, it.v1, it.v2) it.posarray) := by
  obtain ⟨key, v1, v2, ns, fi, rest, pa, ne⟩ := it
  simp only at h
  subst h
  unfold Itr.all
  simp only
  induction rest generalizing key v1 v2 fi with
  | nil => rfl
  | cons x l ih =>
    rw [List.length_cons, Itr.drain, if_neg (by simp), List.map_cons]
    unfold Itr.next
    simp only [Bool.false_eq_true, if_false]
    by_cases h0 : pa = 0
    · subst h0
      simp only [if_true]
      rw [ih]
      simp [withValue]
    · by_cases h1 : pa = 1
      · subst h1
        simp only [if_true, Nat.one_ne_zero, if_false]
        rw [ih]
        simp [withValue]
      · simp only [h0, h1, if_false]
        rw [ih]
        simp [withValue, h0, h1]

theorem filter_one {l : List Int} (hn : l.Nodup) (v : Int) : l.filter (fun x => decide (v = x)) = if v ∈ l then [v] else [] := by
  have : l.filter (fun x => decide (v = x)) = l.filter (· == v) := List.filter_congr fun x _ => by
    rw [Bool.eq_iff_iff, decide_eq_true_iff, beq_iff_eq]; exact eq_comm
  rw [this, List.filter_beq]
  rw [hn.count]
  split <;> simp

theorem nodup_of_sorted {l : List Int} (hs : l.Pairwise (· < ·)) : l.Nodup := hs.imp fun h => Int.ne_of_lt h

theorem branch_eq {ix : Index} (hs : ix.values.Pairwise (· < ·)) (hl : ix.size = ix.values.length) (old : Bool) (t : T3) (idx q : Nat) {x : Int} (hx : -1 ≤ x) (first second : Int) :
    triples (ix.branch old t idx q x first second) = (ix.values.filter (fits x)).map (withValue t q) := by
  unfold Index.branch
  by_cases h0 : x ≥ 0
  · rw [if_pos h0]
    have hfit : ix.values.filter (fits x) = if x ∈ ix.values then [x] else [] := by
      rw [← filter_one (nodup_of_sorted hs) x]
      refine List.filter_congr fun y _ => ?_
      have : (x == (-1 : Int)) = false := by simp; omega
      simp [fits, this]
      rfl
    rw [hfit]
    rcases posValue_spec hs hl x with ⟨h1, h2, h3, _⟩ | ⟨h1, h2, _⟩
    · rw [if_neg (by omega), if_pos h1]
      have : (ix.values.drop (ix.posValue x)).take 1 = [x] := by
        obtain ⟨g, e⟩ := List.getElem?_eq_some_iff.1 h3
        rw [List.drop_eq_getElem_cons g, e]; simp
      rw [this]
      simp only [triples]
      rw [drain_eq _ rfl]
      rfl
    · rw [if_pos h2, if_neg h1]; rfl
  · rw [if_neg h0]
    have : x = -1 := by omega
    subst this
    simp only [triples]
    rw [drain_eq _ rfl, List.filter_eq_self.2 fun y _ => by simp [fits]]
    rfl

/-- Where the values are in the order of an index. -/
def place (idx pos : Nat) : Nat := if (inOrder idx (0, 1, 2)).1 = pos then 0 else if (inOrder idx (0, 1, 2)).2.1 = pos then 1 else 2

theorem inOrder_withValue {idx pos : Nat} (hi : idx < 6) (hp : pos < 3) (t : T3) (v : Int) : inOrder idx (withValue t pos v) = withValue (inOrder idx t) (place idx pos) v := by
  have hi' : idx = 0 ∨ idx = 1 ∨ idx = 2 ∨ idx = 3 ∨ idx = 4 ∨ idx = 5 := by omega
  have hp' : pos = 0 ∨ pos = 1 ∨ pos = 2 := by omega
  rcases hi' with rfl | rfl | rfl | rfl | rfl | rfl <;> rcases hp' with rfl | rfl | rfl <;> rfl

/-- The pattern of an update: -1 for the values, ids for the other fields. -/
def Hole (t : T3) (q : Nat) : Prop := (q = 0 ∧ t.1 = -1 ∧ 0 ≤ t.2.1 ∧ 0 ≤ t.2.2) ∨ (q = 1 ∧ 0 ≤ t.1 ∧ t.2.1 = -1 ∧ 0 ≤ t.2.2) ∨ (q = 2 ∧ 0 ≤ t.1 ∧ 0 ≤ t.2.1 ∧ t.2.2 = -1)

theorem hole_inOrder {idx pos : Nat} (hi : idx < 6) {t : T3} (h : Hole t pos) : Hole (inOrder idx t) (place idx pos) := by
  have : idx = 0 ∨ idx = 1 ∨ idx = 2 ∨ idx = 3 ∨ idx = 4 ∨ idx = 5 := by omega
  obtain ⟨a, b, c⟩ := t
  unfold Hole at h ⊢
  rcases this with rfl | rfl | rfl | rfl | rfl | rfl <;> rcases h with ⟨rfl, h⟩ | ⟨rfl, h⟩ | ⟨rfl, h⟩ <;> simp_all [inOrder, permute, place]

theorem getIterator_eq {ix : Index} (hs : ix.values.Pairwise (· < ·)) (hl : ix.size = ix.values.length) (old : Bool) {idx q : Nat} (hole : Hole (inOrder idx ix.triple) q) {first second third : Int}
    (h1 : -1 ≤ first) (h2 : -1 ≤ second) (h3 : -1 ≤ third) :
    triples (ix.getIterator old idx first second third) = (ix.values.map (withValue (inOrder idx ix.triple) q)).filter (agrees first second third) := by
  unfold Index.getIterator
  simp only
  rw [show permute idx ix.triple.1 ix.triple.2.1 ix.triple.2.2 = inOrder idx ix.triple from rfl]
  generalize inOrder idx ix.triple = t at hole ⊢
  obtain ⟨a, b, c⟩ := t
  rw [List.filter_map]
  have hnil : (∀ v, agrees first second third (withValue (a, b, c) q v) = false) → ([] : List T3) = (ix.values.filter (agrees first second third ∘ withValue (a, b, c) q)).map (withValue (a, b, c) q) := by
    intro h
    rw [List.filter_eq_nil_iff.2 fun v _ => by simp [h v]]; rfl
  have hsame : ∀ x, (∀ v, agrees first second third (withValue (a, b, c) q v) = fits x v) →
      (ix.values.filter (fits x)).map (withValue (a, b, c) q) = (ix.values.filter (agrees first second third ∘ withValue (a, b, c) q)).map (withValue (a, b, c) q) := by
    intro x h
    congr 1
    exact List.filter_congr fun v _ => (h v).symm
  rcases hole with ⟨rfl, ha, hb, hc⟩ | ⟨rfl, ha, hb, hc⟩ | ⟨rfl, ha, hb, hc⟩ <;> simp only at ha hb hc ⊢
  · rw [if_neg (by omega)]
    by_cases g2 : second ≠ -1 ∧ b ≠ -1 ∧ second ≠ b
    · rw [if_pos g2]; exact hnil fun v => by simp [agrees, withValue, fits, g2.1, g2.2.2]
    · rw [if_neg g2]
      by_cases g3 : third ≠ -1 ∧ c ≠ -1 ∧ third ≠ c
      · rw [if_pos g3]; exact hnil fun v => by simp [agrees, withValue, fits, g3.1, g3.2.2]
      · rw [if_neg g3, if_pos ha, branch_eq hs hl _ _ _ _ h1]
        refine hsame first fun v => ?_
        have e2 : fits second b = true := by simp [fits]; omega
        have e3 : fits third c = true := by simp [fits]; omega
        simp [agrees, withValue, e2, e3]
  · by_cases g1 : first ≠ -1 ∧ a ≠ -1 ∧ first ≠ a
    · rw [if_pos g1]; exact hnil fun v => by simp [agrees, withValue, fits, g1.1, g1.2.2]
    · rw [if_neg g1, if_neg (by omega)]
      by_cases g3 : third ≠ -1 ∧ c ≠ -1 ∧ third ≠ c
      · rw [if_pos g3]; exact hnil fun v => by simp [agrees, withValue, fits, g3.1, g3.2.2]
      · rw [if_neg g3, if_neg (by omega), if_pos hb, branch_eq hs hl _ _ _ _ h2]
        refine hsame second fun v => ?_
        have e1 : fits first a = true := by simp [fits]; omega
        have e3 : fits third c = true := by simp [fits]; omega
        simp [agrees, withValue, e1, e3]
  · by_cases g1 : first ≠ -1 ∧ a ≠ -1 ∧ first ≠ a
    · rw [if_pos g1]; exact hnil fun v => by simp [agrees, withValue, fits, g1.1, g1.2.2]
    · rw [if_neg g1]
      by_cases g2 : second ≠ -1 ∧ b ≠ -1 ∧ second ≠ b
      · rw [if_pos g2]; exact hnil fun v => by simp [agrees, withValue, fits, g2.1, g2.2.2]
      · rw [if_neg g2, if_neg (by omega), if_neg (by omega), if_neg (by omega), branch_eq hs hl _ _ _ _ h3]
        refine hsame third fun v => ?_
        have e1 : fits first a = true := by simp [fits]; omega
        have e2 : fits second b = true := by simp [fits]; omega
        simp [agrees, withValue, e1, e2]

/-! ## Statistics -/

theorem advance_spec {v : Nat} {l : List Nat} (hs : l.Pairwise (· < ·)) :
    (advance v l).Pairwise (· < ·) ∧ (∀ w, v ≤ w → (w ∈ advance v l ↔ w ∈ l)) ∧ (∀ c r, advance v l = c :: r → c < v → r = []) := by
  induction l with
  | nil => exact ⟨hs, fun _ _ => Iff.rfl, fun c r e => by cases e⟩
  | cons c l ih =>
    cases l with
    | nil => exact ⟨hs, fun _ _ => Iff.rfl, fun c r e _ => by simp only [advance] at e; injection e with _ e; exact e.symm⟩
    | cons c' l =>
      simp only [advance]
      split
      · rename_i hc
        obtain ⟨h1, h2, h3⟩ := ih (List.pairwise_cons.1 hs).2
        refine ⟨h1, fun w hw => ?_, h3⟩
        rw [h2 w hw, List.mem_cons (a := w) (b := c)]
        constructor
        · exact Or.inr
        · rintro (rfl | h)
          · omega
          · exact h
      · rename_i hc
        refine ⟨hs, fun _ _ => Iff.rfl, fun d r e hd => ?_⟩
        injection e with e _
        omega

/-- The flags of the values that the iterator does not have. -/
theorem outerJoin_eq {itr vs : List Nat} (hi : itr.Pairwise (· < ·)) (hv : vs.Pairwise (· < ·)) : outerJoin itr vs = vs.map fun v => if v ∈ itr then 0 else 1 := by
  induction vs generalizing itr with
  | nil => cases itr <;> rfl
  | cons v vs ih =>
    obtain ⟨a1, a2, a3⟩ := advance_spec (v := v) hi
    have hvs := (List.pairwise_cons.1 hv).2
    have hgt := (List.pairwise_cons.1 hv).1
    have hrest : ∀ l : List Nat, l.Pairwise (· < ·) → (∀ w ∈ vs, (w ∈ l ↔ w ∈ itr)) → outerJoin l vs = vs.map fun v => if v ∈ itr then 0 else 1 := by
      intro l hl hm
      rw [ih hl hvs]
      refine List.map_congr_left fun w hw => ?_
      simp only [hm w hw]
    simp only [outerJoin, List.map_cons]
    rcases e : advance v itr with _ | ⟨c, l⟩
    · have hno : v ∉ itr := fun h => by have := (a2 v (Nat.le_refl _)).2 h; rw [e] at this; cases this
      simp only [hno, if_false]
      rw [hrest [] List.Pairwise.nil fun w hw => by rw [← a2 w (Nat.le_of_lt (hgt w hw)), e]]
    · simp only
      rw [e] at a1 a2
      split
      · rename_i hc
        have hl := a3 c l e hc
        subst hl
        have hno : v ∉ itr := fun h => by have := (a2 v (Nat.le_refl _)).2 h; simp at this; omega
        simp only [hno, if_false]
        rw [hrest [] List.Pairwise.nil fun w hw => by rw [← a2 w (Nat.le_of_lt (hgt w hw))]; have := hgt w hw; simp; omega]
      · rename_i hc
        have hmem : v ∈ itr ↔ c = v := by
          rw [← a2 v (Nat.le_refl _), List.mem_cons]
          constructor
          · rintro (h | h)
            · exact h.symm
            · have := (List.pairwise_cons.1 a1).1 v h; omega
          · exact fun h => Or.inl h.symm
        have hr := hrest (c :: l) a1 fun w hw => a2 w (Nat.le_of_lt (hgt w hw))
        split
        · rename_i hne
          rw [hr, if_neg (fun h => hne (hmem.1 h))]
        · rename_i hne
          rw [hr, if_pos (hmem.2 (Classical.not_not.1 hne))]

theorem sum_flags (vs : List Nat) (p : Nat → Prop) [DecidablePred p] : (vs.map fun v => if p v then 0 else 1).sum = (vs.filter fun v => decide (¬ p v)).length := by
  induction vs with
  | nil => rfl
  | cons v vs ih =>
    simp only [List.map_cons, List.sum_cons, ih, List.filter_cons]
    by_cases h : p v <;> simp [h] <;> omega

end Trident.Diff1
