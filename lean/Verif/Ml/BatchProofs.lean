import Verif.Ml.Batch
/-!
Lemmas on batches.
-/
namespace Trident.Batch

/-- A triple whose numbers fit in five bytes. -/
def Fits (t : Triple) : Prop := t.1 < 1099511627776 ∧ t.2.1 < 1099511627776 ∧ t.2.2 < 1099511627776

theorem number_append (a b : List Nat) : number (a ++ b) = number a + 256 ^ a.length * number b := by
  induction a with
  | nil => simp [number]
  | cons x a ih =>
    simp only [List.cons_append, number, ih, List.length_cons, Nat.pow_succ, Nat.mul_add]
    rw [Nat.mul_comm (256 ^ a.length) 256, Nat.mul_assoc]
    omega

theorem number_put5 {x : Nat} (h : x < 1099511627776) : number (put5 x) = x := by
  simp only [put5, number]
  omega

theorem length_put5 (x : Nat) : (put5 x).length = 5 := rfl

theorem length_record (t : Triple) : (record t).length = 15 := rfl

/-- The file of a list of triples. -/
def fileOf (ts : List Triple) : List Nat := ts.flatMap record

theorem length_file (ts : List Triple) : (fileOf ts).length = 15 * ts.length := by
  induction ts with
  | nil => rfl
  | cons t ts ih =>
    have : fileOf (t :: ts) = record t ++ fileOf ts := rfl
    rw [this, List.length_append, length_record, ih, List.length_cons]
    omega

theorem drop_file {ts : List Triple} {i : Nat} (h : i ≤ ts.length) : (fileOf ts).drop (i * 15) = fileOf (ts.drop i) := by
  have e : fileOf ts = fileOf (ts.take i) ++ fileOf (ts.drop i) := by
    rw [fileOf, fileOf, fileOf, ← List.flatMap_append, List.take_append_drop]
  have hl : (fileOf (ts.take i)).length = i * 15 := by
    rw [length_file, List.length_take, Nat.min_eq_left h, Nat.mul_comm]
  rw [e, ← hl, List.drop_left]

theorem read_at {raw : List Nat} {off x : Nat} {rest : List Nat} (hd : raw.drop off = put5 x ++ rest) (hx : x < 1099511627776) (hp : off + 8 ≤ pageEnd raw.length) : read5 raw off = some x := by
  rw [read5, if_pos hp, hd]
  have e : (put5 x ++ rest).take 8 = put5 x ++ rest.take 3 := by
    rw [List.take_append, length_put5, List.take_of_length_le (by rw [length_put5]; omega)]
  rw [e, number_append, number_put5 hx, length_put5]
  have : (256 : Nat) ^ 5 = 1099511627776 := by decide
  rw [this, Nat.add_mul_mod_self_left, Nat.mod_eq_of_lt hx]

theorem getAt_file {ts : List Triple} {i : Nat} {t : Triple} (hf : Fits t) (hi : ts[i]? = some t) (hp : i * 15 + 18 ≤ pageEnd (fileOf ts).length) : getAt (fileOf ts) i = some t := by
  obtain ⟨hl, rfl⟩ := List.getElem?_eq_some_iff.1 hi
  have hd : (fileOf ts).drop (i * 15) = record ts[i] ++ fileOf (ts.drop (i + 1)) := by
    rw [drop_file (by omega), List.drop_eq_getElem_cons hl]; rfl
  obtain ⟨h1, h2, h3⟩ := hf
  have e0 : (fileOf ts).drop (i * 15) = put5 ts[i].1 ++ (put5 ts[i].2.1 ++ (put5 ts[i].2.2 ++ fileOf (ts.drop (i + 1)))) := by
    rw [hd, record]; simp
  have e5 : (fileOf ts).drop (i * 15 + 5) = put5 ts[i].2.1 ++ (put5 ts[i].2.2 ++ fileOf (ts.drop (i + 1))) := by
    rw [← List.drop_drop, e0]; rfl
  have e10 : (fileOf ts).drop (i * 15 + 10) = put5 ts[i].2.2 ++ fileOf (ts.drop (i + 1)) := by
    rw [← List.drop_drop, e0]; rfl
  rw [getAt, read_at e0 h1 (by omega), read_at e5 h2 (by omega), read_at e10 h3 (by omega)]

/-- The last record can be read if the last page has three more bytes. -/
theorem page_ok {n i : Nat} (h : 15 * n % 4096 ≠ 0 ∧ 15 * n % 4096 < 4094) (hi : i < n) : i * 15 + 18 ≤ pageEnd (15 * n) := by
  have hN : i * 15 + 15 ≤ 15 * n := by omega
  unfold pageEnd
  generalize 15 * n = N at h hN ⊢
  have hd := Nat.div_add_mod N 4096
  have hq : (N + 4095) / 4096 = N / 4096 + 1 := by omega
  rw [hq]
  omega

theorem fill_eq {raw : List Nat} {uses : Triple → Bool} {val : Nat → Triple} {l : List Nat} (h : ∀ i ∈ l, getAt raw i = some (val i)) (k : Nat) :
    ∃ m, fill raw uses k l = some (((l.take m).map val).filter uses, l.drop m) ∧ (((l.take m).map val).filter uses).length ≤ k ∧ m ≤ l.length ∧
      (m = l.length ∨ (((l.take m).map val).filter uses).length = k) := by
  induction l generalizing k with
  | nil => cases k <;> exact ⟨0, by simp [fill]⟩
  | cons i l ih =>
    cases k with
    | zero => exact ⟨0, by simp [fill]⟩
    | succ k =>
      have hi := h i List.mem_cons_self
      have hl := fun j hj => h j (List.mem_cons_of_mem i hj)
      simp only [fill, hi]
      by_cases hu : uses (val i) = true
      · obtain ⟨m, e, h1, h2, h3⟩ := ih hl k
        refine ⟨m + 1, ?_, ?_, ?_, ?_⟩
        · rw [if_pos hu, e]; simp [hu]
        · simp [hu, -List.map_take]; exact h1
        · simpa using h2
        · rcases h3 with h3 | h3
          · exact Or.inl (by simp [h3])
          · exact Or.inr (by simp [hu, h3, -List.map_take])
      · obtain ⟨m, e, h1, h2, h3⟩ := ih hl (k + 1)
        refine ⟨m + 1, ?_, ?_, ?_, ?_⟩
        · rw [if_neg hu, e]; simp [hu]
        · simp [hu, -List.map_take]; exact h1
        · simpa using h2
        · rcases h3 with h3 | h3
          · exact Or.inl (by simp [h3])
          · exact Or.inr (by simp [hu, h3, -List.map_take])

/-- The state in the middle of an epoch. -/
structure Runs (c : Creator) (val : Nat → Triple) : Prop where
  size : 0 < c.batchsize
  reads : ∀ i ∈ c.indices, getAt c.raw i = some (val i)

theorem getBatch_eq {c : Creator} {val : Nat → Triple} (h : Runs c val) (hc : c.currentidx ≤ c.indices.length) :
    ∃ m, c.currentidx ≤ m ∧ m ≤ c.indices.length ∧
      getBatch c = some ((((c.indices.drop c.currentidx).take (m - c.currentidx)).map val).filter c.uses, { c with currentidx := m }) ∧
      ((((c.indices.drop c.currentidx).take (m - c.currentidx)).map val).filter c.uses).length ≤ c.batchsize ∧
      (m = c.indices.length ∨ ((((c.indices.drop c.currentidx).take (m - c.currentidx)).map val).filter c.uses).length = c.batchsize) := by
  obtain ⟨m, e, h1, h2, h3⟩ := fill_eq (uses := c.uses) (fun i hi => h.reads i (List.mem_of_mem_drop hi)) c.batchsize (l := c.indices.drop c.currentidx)
  rw [List.length_drop] at h2 h3
  have em : c.currentidx + m - c.currentidx = m := by omega
  refine ⟨c.currentidx + m, by omega, by omega, ?_, by rw [em]; exact h1, ?_⟩
  · rw [getBatch, e, em]
    simp only [Option.map_some, Option.some.injEq, Prod.mk.injEq, true_and, List.drop_drop, List.length_drop]
    congr 1
    omega
  · rw [em]
    rcases h3 with h3 | h3
    · exact Or.inl (by omega)
    · exact Or.inr h3

theorem epoch_eq {c : Creator} {val : Nat → Triple} (h : Runs c val) (hc : c.currentidx ≤ c.indices.length) {bs : List (List Triple)} (he : Epoch c bs) :
    bs.flatten = ((c.indices.drop c.currentidx).map val).filter c.uses ∧ (∀ b ∈ bs, b.length ≤ c.batchsize) ∧ ∀ b ∈ bs.dropLast, b.length = c.batchsize := by
  induction he with
  | @stop c c' e =>
    obtain ⟨m, h1, h2, h3, h4, h5⟩ := getBatch_eq h hc
    rw [h3] at e
    injection e with e
    injection e with e1 e2
    have hm : m = c.indices.length := by
      rcases h5 with h5 | h5
      · exact h5
      · rw [e1] at h5; have := h.size; simp at h5; omega
    rw [hm, List.take_of_length_le (by simp)] at e1
    exact ⟨by rw [e1]; rfl, by simp, by simp⟩
  | @batch c c' t b l e hl ih =>
    obtain ⟨m, h1, h2, h3, h4, h5⟩ := getBatch_eq h hc
    rw [h3] at e
    injection e with e
    injection e with e1 e2
    subst e2
    obtain ⟨g1, g2, g3⟩ := ih ⟨h.size, h.reads⟩ h2
    rw [e1] at h4 h5
    refine ⟨?_, ?_, ?_⟩
    · have es : (c.indices.drop c.currentidx) = (c.indices.drop c.currentidx).take (m - c.currentidx) ++ c.indices.drop m := by
        have := (List.take_append_drop (m - c.currentidx) (c.indices.drop c.currentidx)).symm
        rwa [List.drop_drop, show c.currentidx + (m - c.currentidx) = m by omega] at this
      rw [es, List.map_append, List.filter_append, e1, List.flatten_cons, g1]
      rfl
    · intro x hx
      rcases List.mem_cons.1 hx with rfl | hx
      · exact h4
      · exact g2 x hx
    · intro x hx
      rcases h5 with h5 | h5
      · have : l = [] := by
          cases hl with
          | stop _ => rfl
          | @batch _ _ t' b' l' e' _ =>
            obtain ⟨m', k1, k2, k3, _⟩ := getBatch_eq (c := { c with currentidx := m }) ⟨h.size, h.reads⟩ h2
            rw [k3] at e'
            injection e' with e'
            injection e' with e1' _
            simp [h5] at e1'
        subst this
        simp at hx
      · rcases l with _ | ⟨y, l⟩
        · simp at hx
        · rw [List.dropLast_cons_cons] at hx
          rcases List.mem_cons.1 hx with rfl | hx
          · exact h5
          · exact g3 x hx

theorem epoch_ends {c : Creator} {val : Nat → Triple} (h : Runs c val) (hc : c.currentidx ≤ c.indices.length) : ∃ bs, Epoch c bs := by
  generalize hn : c.indices.length - c.currentidx = n
  induction n using Nat.strongRecOn generalizing c with
  | _ n ih =>
    obtain ⟨m, h1, h2, h3, h4, h5⟩ := getBatch_eq h hc
    rcases hb : (((c.indices.drop c.currentidx).take (m - c.currentidx)).map val).filter c.uses with _ | ⟨t, b⟩
    · rw [hb] at h3
      exact ⟨[], .stop h3⟩
    · rw [hb] at h3
      have hlt : c.currentidx < m := by
        rcases Nat.lt_or_ge c.currentidx m with g | g
        · exact g
        · rw [show m - c.currentidx = 0 by omega] at hb; simp at hb
      obtain ⟨bs, hbs⟩ := ih (c.indices.length - m) (by omega) (c := { c with currentidx := m }) ⟨h.size, h.reads⟩ h2 rfl
      exact ⟨_, .batch h3 hbs⟩

end Trident.Batch

namespace Trident.Batch

/-! ## Numbered batches -/

theorem batchNr_eq {c : Creator} {val : Nat → Triple} (h : Runs c val) (hf : c.filter = none) (nr : Nat) :
    getBatchNr c nr = some (((c.indices.drop (nr * c.batchsize)).take c.batchsize).map val) := by
  obtain ⟨m, e, h1, h2, h3⟩ := fill_eq (uses := c.uses) (fun i hi => h.reads i (List.mem_of_mem_drop hi)) c.batchsize (l := c.indices.drop (nr * c.batchsize))
  have hu : ∀ l : List Triple, l.filter c.uses = l := fun l => List.filter_eq_self.2 fun t _ => by simp [Creator.uses, hf]
  rw [hu] at e h1 h3
  rw [List.length_map, List.length_take] at h1 h3
  rw [getBatchNr, e]
  simp only [Option.map_some, Option.some.injEq]
  congr 1
  rcases h3 with h3 | h3
  · rw [List.take_of_length_le (by omega), List.take_of_length_le (by omega)]
  · rw [show m = c.batchsize by omega]

theorem chunks_flatten {α : Type} (l : List α) (b k : Nat) : ((List.range k).map fun nr => (l.drop (nr * b)).take b).flatten = l.take (k * b) := by
  induction k with
  | zero => simp
  | succ k ih =>
    rw [List.range_succ, List.map_append, List.flatten_append, ih]
    simp only [List.map_cons, List.map_nil, List.flatten_cons, List.flatten_nil, List.append_nil]
    rw [Nat.succ_mul, List.take_add]

theorem nBatches_covers {c : Creator} (h : 0 < c.batchsize) : c.indices.length ≤ nBatches c * c.batchsize ∧ ∀ nr < nBatches c, nr * c.batchsize < c.indices.length := by
  have hd := Nat.div_add_mod c.indices.length c.batchsize
  have hm := Nat.mod_lt c.indices.length h
  unfold nBatches
  generalize c.indices.length / c.batchsize = q at hd ⊢
  generalize c.indices.length % c.batchsize = r at hd hm ⊢
  have hle : ∀ a b, a ≤ b → a * c.batchsize ≤ b * c.batchsize := fun a b hab => Nat.mul_le_mul_right _ hab
  rw [Nat.mul_comm] at hd
  split
  · refine ⟨?_, fun nr hn => ?_⟩
    · rw [Nat.add_mul]; omega
    · have := hle nr q (by omega); omega
  · refine ⟨by omega, fun nr hn => ?_⟩
    have := hle (nr + 1) q (by omega)
    rw [Nat.add_mul] at this
    omega

/-! ## The files -/

theorem createInput_eq (preds : Option (List Nat)) (valid test : Bool) (l : List (Triple × Bool × Bool)) (f : Parts) :
    ∃ V U T, createInput preds valid test l f = ⟨f.valid ++ fileOf V, f.test ++ fileOf U, f.train ++ fileOf T⟩ ∧ (V ++ (U ++ T)).Perm (l.map fun e => stored preds e.1) ∧
      (valid = false → V = []) ∧ (test = false → U = []) := by
  induction l generalizing f with
  | nil => exact ⟨[], [], [], by simp [createInput, fileOf]⟩
  | cons e l ih =>
    obtain ⟨t, v, u⟩ := e
    simp only [createInput]
    split
    · rename_i h
      obtain ⟨V, U, T, e, hp, h1, h2⟩ := ih { f with valid := f.valid ++ record (stored preds t) }
      refine ⟨stored preds t :: V, U, T, ?_, ?_, fun hv => by simp [hv] at h, h2⟩
      · rw [e]; simp [fileOf]
      · exact List.Perm.cons _ hp
    · split
      · rename_i h
        obtain ⟨V, U, T, e, hp, h1, h2⟩ := ih { f with test := f.test ++ record (stored preds t) }
        refine ⟨V, stored preds t :: U, T, ?_, ?_, h1, fun hv => by simp [hv] at h⟩
        · rw [e]; simp [fileOf]
        · exact List.perm_middle.trans (List.Perm.cons _ hp)
      · obtain ⟨V, U, T, e, hp, h1, h2⟩ := ih { f with train := f.train ++ record (stored preds t) }
        refine ⟨V, U, stored preds t :: T, ?_, ?_, h1, h2⟩
        · rw [e]; simp [fileOf]
        · rw [← List.append_assoc]
          refine List.perm_middle.trans (List.Perm.cons _ ?_)
          rw [List.append_assoc]
          exact hp

theorem loadFrom_eq {ts : List Triple} (hf : ∀ t ∈ ts, Fits t) (h : 15 * ts.length % 4096 ≠ 0 ∧ 15 * ts.length % 4096 < 4094) (i n : Nat) (hn : i + n = ts.length) :
    loadFrom (fileOf ts) i n = some (ts.drop i) := by
  induction n generalizing i with
  | zero => rw [loadFrom, List.drop_eq_nil_of_le (by omega)]
  | succ n ih =>
    have hi : i < ts.length := by omega
    rw [loadFrom, ih (i + 1) (by omega), getAt_file (hf _ (List.getElem_mem hi)) (List.getElem?_eq_getElem hi) (by rw [length_file]; exact page_ok h hi)]
    simp only
    rw [← List.drop_eq_getElem_cons hi]

theorem file_records (ts : List Triple) : (fileOf ts).length / 15 = ts.length := by rw [length_file]; omega

theorem loadTriples_eq {ts : List Triple} (hf : ∀ t ∈ ts, Fits t) (h : 15 * ts.length % 4096 ≠ 0 ∧ 15 * ts.length % 4096 < 4094) : loadTriples (fileOf ts) = some ts := by
  have hne : fileOf ts ≠ [] := by
    intro e
    have := length_file ts
    rw [e] at this
    simp only [List.length_nil] at this
    omega
  rw [loadTriples, if_neg hne, file_records, loadFrom_eq hf h 0 _ (by omega), List.drop_zero]

/-- The last record cannot be read. -/
theorem last_undefined {raw : List Nat} {n : Nat} (hl : raw.length = 15 * (n + 1)) (h : 15 * (n + 1) % 4096 = 0 ∨ 4094 ≤ 15 * (n + 1) % 4096) : getAt raw n = none := by
  have hr : read5 raw (n * 15 + 10) = none := by
    rw [read5, if_neg]
    rw [hl]
    unfold pageEnd
    have hN : n * 15 + 15 = 15 * (n + 1) := by omega
    rw [show n * 15 + 10 + 8 = n * 15 + 15 + 3 by omega, hN]
    generalize 15 * (n + 1) = N at h ⊢
    have hd := Nat.div_add_mod N 4096
    rcases h with h | h
    · have hq : (N + 4095) / 4096 = N / 4096 := by omega
      rw [hq]; omega
    · have hq : (N + 4095) / 4096 = N / 4096 + 1 := by omega
      rw [hq]; omega
  rw [getAt, hr]
  split
  · rename_i e; cases e
  · rfl

theorem loadFrom_undefined {raw : List Nat} (k i n : Nat) (hk : i ≤ k ∧ k < i + n) (h : getAt raw k = none) : loadFrom raw i n = none := by
  induction n generalizing i with
  | zero => omega
  | succ n ih =>
    rw [loadFrom]
    rcases Nat.eq_or_lt_of_le hk.1 with e | e
    · subst e; rw [h]
    · rw [ih (i + 1) (by omega)]
      split
      · rename_i e; cases e
      · rfl

theorem runs_of {c : Creator} {ts : List Triple} (hraw : c.raw = fileOf ts) (hs : Shuffled c) (hb : 0 < c.batchsize) (hf : ∀ t ∈ ts, Fits t)
    (h : 15 * ts.length % 4096 ≠ 0 ∧ 15 * ts.length % 4096 < 4094) : Runs c fun i => ts.getD i (0, 0, 0) := by
  refine ⟨hb, fun i hi => ?_⟩
  have hi' : i < ts.length := by
    have := (hs.1.mem_iff).1 hi
    rw [hraw, file_records] at this
    exact List.mem_range.1 this
  have hv : ts[i]? = some (ts.getD i (0, 0, 0)) := by simp [List.getD, hi']
  rw [hraw]
  exact getAt_file (hf _ (List.mem_of_getElem? hv)) hv (by rw [length_file]; exact page_ok h hi')

theorem indices_perm {c : Creator} {ts : List Triple} (hraw : c.raw = fileOf ts) (hs : Shuffled c) : (c.indices.map fun i => ts.getD i (0, 0, 0)).Perm ts := by
  have h := hs.1.map fun i => ts.getD i (0, 0, 0)
  rw [hraw, file_records] at h
  refine h.trans (List.Perm.of_eq ?_)
  refine List.ext_getElem (by simp) fun i h1 h2 => ?_
  simp [h2]

end Trident.Batch
