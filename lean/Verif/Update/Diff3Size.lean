import Verif.Update.Diff3Build
/-! How large the tables of an update are (no property statements here). -/
namespace Trident.Diff3
open Load Strat

/-- Words of 64 bits. -/
def W64 (t : List Nat) : Prop := ∀ x ∈ t, x < 2 ^ 64

theorem W64.maxHi {t : List Nat} (h : W64 t) : maxHi t < 2 ^ 32 := by
  unfold Diff3.maxHi hi
  cases hl : t.getLast? with
  | none => simp
  | some x =>
    have := h x (List.mem_of_getLast? hl)
    simp only [Option.getD_some]; omega

theorem rowEncode_length {t t' : List Nat} (h : W64 t) (h' : W64 t') :
    (rowEncode (flag (nbytes (maxHi t))) (flag (nbytes (maxHi t'))) t).length ≤ 8 * t.length := by
  have hw : ∀ {n}, n < 2 ^ 32 → (copyWidth (flag (nbytes n))).size ≤ 4 := by
    intro n hn
    have := nbytes_flag hn
    have : flag (nbytes n) = 0 ∨ flag (nbytes n) = 1 ∨ flag (nbytes n) = 2 := by omega
    rcases this with e | e | e <;> rw [e] <;> decide
  unfold rowEncode
  rw [Row.encode_length]
  have h1 := hw h.maxHi
  have h2 := hw h'.maxHi
  have h3 := rows_length t
  calc _ ≤ t.length * (4 + 4) := Nat.mul_le_mul h3 (Nat.add_le_add h1 h2)
    _ = 8 * t.length := by omega

theorem encBlock_length (b1 bc bo k c o : Nat) : (Column.encBlock b1 bc bo k c o).length = b1 + bc + bo := by
  simp [Column.encBlock]; omega

theorem colFold_length (b1 bc bo : Nat) (l : List (Nat × Nat)) (s : ColSt) :
    ((l.foldl (colStep b1 bc bo) s).flush b1 bc bo).length ≤ (s.flush b1 bc bo).length + l.length * (b1 + bc + bo) := by
  induction l generalizing s with
  | nil => simp
  | cons p l ih =>
    rw [List.foldl_cons]
    have h1 := ih (colStep b1 bc bo s p)
    have h2 : ((colStep b1 bc bo s p).flush b1 bc bo).length ≤ (s.flush b1 bc bo).length + (b1 + bc + bo) := by
      unfold colStep
      split
      · have : ∀ v, (({ s with valid := v } : ColSt).flush b1 bc bo).length = (s.flush b1 bc bo).length := by
          intro v
          unfold ColSt.flush
          simp only
          cases s.cur with
          | none => rfl
          | some x => simp [encBlock_length]
        rw [this]; omega
      · show ((s.flush b1 bc bo) ++ _).length ≤ _
        rw [List.length_append, encBlock_length]
        omega
    rw [List.length_cons, Nat.add_mul, Nat.one_mul]
    omega

theorem flatMap_encBE_length (b : Nat) (l : List (Nat × Nat)) : (l.flatMap fun p => encBE b p.2).length = l.length * b := by
  induction l with
  | nil => simp
  | cons p l ih => rw [List.flatMap_cons, List.length_append, ih, List.length_cons, encBE_length, Nat.add_mul]; omega

theorem colEncode_length {t : List Nat} {b1 b2 : Nat} (h1 : b1 ≤ 4) (h2 : b2 ≤ 4) (hn : t.length < 2 ^ 24) :
    (colEncode b1 b2 t).length ≤ 14 + 14 * t.length := by
  have hbc : nbytes t.length ≤ 3 := nbytes_le (by omega) (by omega)
  have hv : (encV t.length).length ≤ 4 := encV_length_le (by omega) (by omega)
  have hr := rows_length t
  have hf := colFold_length b1 (nbytes t.length) (nbytes t.length) (rows t) ⟨[], none, 0, 0⟩
  unfold colEncode
  simp only [List.length_append, encBE_length, List.length_cons, List.length_nil, encVFixed_length, flatMap_encBE_length]
  have e0 : ((⟨[], none, 0, 0⟩ : ColSt).flush b1 (nbytes t.length) (nbytes t.length)).length = 0 := rfl
  rw [e0] at hf
  have m1 : (rows t).length * (b1 + nbytes t.length + nbytes t.length) ≤ t.length * 10 := Nat.mul_le_mul hr (by omega)
  have m2 : (rows t).length * b2 ≤ t.length * 4 := Nat.mul_le_mul hr h2
  omega

/-- The bytes written for a key fit into the blocks reserved for them (diffindex3.cpp:1286-1340). -/
theorem enc_fits (rnd : Nat → Bool × Bool) (g : Nat × List Nat × List Nat) (w1 : W64 g.2.1) (w2 : W64 g.2.2) (hl : g.2.1.length = g.2.2.length)
    (hn : g.2.1.length < 2 ^ 24) :
    (enc1 rnd g).length ≤ (if (cols rnd g).1 then 16 else 8) * g.2.1.length ∧
    (enc2 rnd g).length ≤ (if (cols rnd g).2 then 16 else 8) * g.2.1.length := by
  have b1 : nbytes (maxHi g.2.1) ≤ 4 := nbytes_le (by omega) (by have := w1.maxHi; omega)
  have b2 : nbytes (maxHi g.2.2) ≤ 4 := nbytes_le (by omega) (by have := w2.maxHi; omega)
  have c1 := colEncode_length (t := g.2.1) b1 b2 hn
  have c2 := colEncode_length (t := g.2.2) b2 b1 (by omega)
  have r1 := rowEncode_length w1 w2
  have r2 := rowEncode_length w2 w1
  have hc : ((cols rnd g).1 = true ∨ (cols rnd g).2 = true) → 64 ≤ g.2.1.length := by
    unfold cols
    split
    · simp
    · intro; omega
  constructor
  · unfold enc1
    split
    · have := hc (.inl ‹_›); omega
    · exact r1
  · unfold enc2
    split
    · have := hc (.inr ‹_›); omega
    · omega

theorem pack_lt64 (a b : Nat) : pack a b < 2 ^ 64 := Nat.mod_lt _ (by decide)

/-- The sizes of the tables. -/
def total (gs : List (Nat × List Nat × List Nat)) : Nat := (gs.map fun g => g.2.1.length).sum

variable {S : Sorts}

theorem tables_sizes (h : S.Ok) (prev : Option Nat) (t1 t2 : List Nat) (l : List T3) (hl : t1.length = t2.length) (w1 : W64 t1) (w2 : W64 t2) :
    total (tables S prev t1 t2 l) ≤ t1.length + l.length ∧
    ∀ g ∈ tables S prev t1 t2 l, W64 g.2.1 ∧ W64 g.2.2 ∧ g.2.1.length = g.2.2.length ∧ g.2.1.length ≤ t1.length + l.length := by
  induction l generalizing prev t1 t2 with
  | nil =>
    cases prev with
    | none => rw [tables]; simp [total]
    | some k =>
      rw [tables]
      split
      · simp [total]
      · have p1 := (h.words t1).1
        have p2 := (h.words t2).1
        refine ⟨by simp [total, p1.length_eq], ?_⟩
        intro g hg
        rw [List.mem_singleton.1 hg]
        exact ⟨fun x hx => w1 x (p1.mem_iff.1 hx), fun x hx => w2 x (p2.mem_iff.1 hx), by rw [p1.length_eq, p2.length_eq, hl], by
          show (S.words t1).length ≤ _; rw [p1.length_eq]; simp⟩
  | cons r l ih =>
    rw [tables.eq_def]
    simp only
    split
    · have w1' : W64 (t1 ++ [pack r.2.1 r.2.2]) := by
        intro x hx
        rcases List.mem_append.1 hx with hx | hx
        · exact w1 x hx
        · rw [List.mem_singleton.1 hx]; exact pack_lt64 _ _
      have w2' : W64 (t2 ++ [pack r.2.2 r.2.1]) := by
        intro x hx
        rcases List.mem_append.1 hx with hx | hx
        · exact w2 x hx
        · rw [List.mem_singleton.1 hx]; exact pack_lt64 _ _
      obtain ⟨i1, i2⟩ := ih prev _ _ (by simp [hl]) w1' w2'
      simp only [List.length_append, List.length_cons, List.length_nil] at i1 i2 ⊢
      refine ⟨by omega, fun g hg => ?_⟩
      obtain ⟨a, b, c, d⟩ := i2 g hg
      exact ⟨a, b, c, by omega⟩
    · obtain ⟨i1, i2⟩ := ih (some r.1) [pack r.2.1 r.2.2] [pack r.2.2 r.2.1] (by simp)
        (fun x hx => by rw [List.mem_singleton.1 hx]; exact pack_lt64 _ _) (fun x hx => by rw [List.mem_singleton.1 hx]; exact pack_lt64 _ _)
      have p1 := (sortGroup_spec h t1).1
      have p2 := (sortGroup_spec h t2).1
      have key : ∀ A : List (Nat × List Nat × List Nat), A = [] ∨ (∃ k, A = [(k, sortGroup S t1, sortGroup S t2)]) →
          total (A ++ tables S (some r.1) [pack r.2.1 r.2.2] [pack r.2.2 r.2.1] l) ≤ t1.length + (r :: l).length ∧
          ∀ g ∈ A ++ tables S (some r.1) [pack r.2.1 r.2.2] [pack r.2.2 r.2.1] l,
            W64 g.2.1 ∧ W64 g.2.2 ∧ g.2.1.length = g.2.2.length ∧ g.2.1.length ≤ t1.length + (r :: l).length := by
        intro A hA
        have hrest : ∀ g ∈ tables S (some r.1) [pack r.2.1 r.2.2] [pack r.2.2 r.2.1] l,
            W64 g.2.1 ∧ W64 g.2.2 ∧ g.2.1.length = g.2.2.length ∧ g.2.1.length ≤ t1.length + (r :: l).length := by
          intro g hg
          obtain ⟨a, b, c, d⟩ := i2 g hg
          simp only [List.length_cons, List.length_nil] at d ⊢
          exact ⟨a, b, c, by omega⟩
        simp only [List.length_cons, List.length_nil] at i1
        rcases hA with rfl | ⟨k, rfl⟩
        · refine ⟨?_, hrest⟩
          rw [List.nil_append, List.length_cons]; omega
        · constructor
          · rw [total, List.map_append, List.sum_append]
            simp only [List.map_cons, List.map_nil, List.sum_cons, List.sum_nil, p1.length_eq, List.length_cons]
            unfold total at i1
            omega
          · intro g hg
            rcases List.mem_append.1 hg with hg | hg
            · rw [List.mem_singleton.1 hg]
              exact ⟨fun x hx => w1 x (p1.mem_iff.1 hx), fun x hx => w2 x (p2.mem_iff.1 hx), by show (sortGroup S t1).length = (sortGroup S t2).length; rw [p1.length_eq, p2.length_eq, hl], by
                show (sortGroup S t1).length ≤ _; rw [p1.length_eq]; simp⟩
            · exact hrest g hg
      apply key
      cases prev with
      | none => exact .inl rfl
      | some k =>
        simp only
        split
        · exact .inl rfl
        · exact .inr ⟨k, rfl⟩

theorem fold_length (rnd : Nat → Bool × Bool) (gs : List (Nat × List Nat × List Nat))
    (h : ∀ g ∈ gs, W64 g.2.1 ∧ W64 g.2.2 ∧ g.2.1.length = g.2.2.length ∧ g.2.1.length < 2 ^ 24) (st : Out) :
    (gs.foldl (storeTables rnd) st).f1.length ≤ st.f1.length + 16 * total gs ∧
    (gs.foldl (storeTables rnd) st).f2.length ≤ st.f2.length + 16 * total gs := by
  induction gs generalizing st with
  | nil => simp [total]
  | cons g gs ih =>
    obtain ⟨i1, i2⟩ := ih (fun g hg => h g (by simp [hg])) (storeTables rnd st g)
    obtain ⟨a, b, c, d⟩ := h g (by simp)
    obtain ⟨e1, e2⟩ := enc_fits rnd g a b c d
    have f1 : (storeTables rnd st g).f1.length = st.f1.length + (enc1 rnd g).length := by
      rw [← List.length_append]; rfl
    have f2 : (storeTables rnd st g).f2.length = st.f2.length + (enc2 rnd g).length := by
      rw [← List.length_append]; rfl
    have e1' : (enc1 rnd g).length ≤ 16 * g.2.1.length := by split at e1 <;> omega
    have e2' : (enc2 rnd g).length ≤ 16 * g.2.1.length := by split at e2 <;> omega
    have ht : total (g :: gs) = g.2.1.length + total gs := rfl
    rw [List.foldl_cons, ht]
    omega

theorem sortIndex_length (h : S.Ok) (rnd : Nat → Bool × Bool) (f1 f2 : List UInt8) (l : List T3) (hl : l.length < 2 ^ 24) :
    (sortIndex S rnd f1 f2 l).f1.length ≤ f1.length + 16 * l.length ∧ (sortIndex S rnd f1 f2 l).f2.length ≤ f2.length + 16 * l.length := by
  have hp := (h.byKey l).1.length_eq
  obtain ⟨t1, t2⟩ := tables_sizes h none [] [] (S.byKey l) rfl (by simp [W64]) (by simp [W64])
  rw [hp] at t1 t2
  simp only [List.length_nil, Nat.zero_add] at t1 t2
  obtain ⟨a, b⟩ := fold_length rnd _ (fun g hg => by
    obtain ⟨a, b, c, d⟩ := t2 g hg
    exact ⟨a, b, c, by omega⟩) ⟨f1, f2, []⟩
  unfold sortIndex
  simp only at a b ⊢
  omega

/-- A file of an update grows by at most 16 bytes for each triple. -/
theorem build_length (h : S.Ok) (rnd : Nat → Nat → Bool × Bool) (glob : Nat → List UInt8) (ts : List T3) (hl : ts.length < 2 ^ 24) (d : Order) :
    (fileOf (build S rnd glob ts) d.idx).length ≤ (glob d.idx).length + 16 * ts.length := by
  have key : ∀ i, (build S rnd glob ts i).f1.length ≤ (glob i).length + 16 * ts.length ∧ (build S rnd glob ts i).f2.length ≤ (glob (i + 3)).length + 16 * ts.length := by
    intro i
    unfold build
    split
    · have := sortIndex_length h (rnd i) (glob i) (glob (i + 3)) (ts.map (permRow i)) (by simpa using hl)
      simpa using this
    · have := sortIndex_length h (rnd i) [] [] (ts.map (permRow i)) (by simpa using hl)
      simp only [List.length_nil, List.length_map] at this
      omega
  unfold fileOf
  split
  · exact (key _).1
  · have := (key (d.idx - 3)).2
    rw [show d.idx - 3 + 3 = d.idx by omega] at this
    exact this

/-- A small update appends to the files. -/
theorem build_prefix (rnd : Nat → Nat → Bool × Bool) (glob : Nat → List UInt8) (ts : List T3) (hl : ts.length < USEGLOBAL) (d : Order) :
    ∃ x, fileOf (build S rnd glob ts) d.idx = glob d.idx ++ x := by
  have key : ∀ i, (∃ x, (build S rnd glob ts i).f1 = glob i ++ x) ∧ ∃ x, (build S rnd glob ts i).f2 = glob (i + 3) ++ x := by
    intro i
    unfold build
    rw [if_pos hl]
    unfold sortIndex
    obtain ⟨x, y, ks, e, -⟩ := fold_entries (rnd i) (tables S none [] [] (S.byKey (ts.map (permRow i)))) ⟨glob i, glob (i + 3), []⟩
    rw [e]
    exact ⟨⟨x, rfl⟩, ⟨y, rfl⟩⟩
  unfold fileOf
  split
  · exact (key _).1
  · have := (key (d.idx - 3)).2
    rw [show d.idx - 3 + 3 = d.idx by omega] at this
    exact this

end Trident.Diff3
