import Verif.Ml.SubgraphFile
/-!
# C123: files of subgraphs
-/
namespace Trident.Subgraphs

theorem length_putLE (w : Nat) : ∀ x, (putLE w x).length = w := by
  induction w with
  | zero => intro _; rfl
  | succ w ih => intro x; rw [putLE, List.length_cons, ih]

theorem getLE_putLE (w : Nat) : ∀ x, x < 256 ^ w → getLE (putLE w x) = x := by
  induction w with
  | zero => intro x h; simp at h; subst h; rfl
  | succ w ih =>
    intro x h
    rw [Nat.pow_succ] at h
    rw [putLE, getLE, ih _ (by omega)]
    omega

theorem length_putBE (w x : Nat) : (putBE w x).length = w := by rw [putBE, List.length_reverse, length_putLE]

theorem getBE_putBE {w x : Nat} (h : x < 256 ^ w) : getBE (putBE w x) = x := by
  rw [getBE, putBE, List.reverse_reverse, getLE_putLE w x h]

theorem read_append {n : Nat} {a : List Nat} (h : a.length = n) (b : List Nat) : readBytes n (a ++ b) = some (a, b) := by
  subst h
  rw [readBytes, if_pos (by simp), List.take_left, List.drop_left]

theorem length_putMeta (m : Meta) : (putMeta m).length = 25 := by simp [putMeta, length_putLE]

/-- The numbers of a subgraph fit in 64 bits. -/
def FitsMeta (m : Meta) : Prop := m.ent < 2 ^ 64 ∧ m.rel < 2 ^ 64 ∧ m.size < 2 ^ 64

/-- The subgraphs with the ids from `k` on. -/
def renumber : Nat → List Meta → List Meta
  | _, [] => []
  | k, m :: ms => { m with id := k } :: renumber (k + 1) ms

theorem field {x : Nat} {a b : List Nat} {n : Nat} (ha : a.length = n) (hx : x < 2 ^ 64) :
    getLE (((a ++ (putLE 8 x ++ b)).drop n).take 8) = x := by
  subst ha
  rw [List.drop_left]
  have : (putLE 8 x ++ b).take 8 = putLE 8 x := by
    have e := length_putLE 8 x
    conv => lhs; rw [← e]
    rw [e, List.take_left' e]
  rw [this, getLE_putLE 8 x (by simpa using hx)]

theorem lines (ms : List Meta) (hm : ∀ m ∈ ms, FitsMeta m) (rest : List Nat) : ∀ old,
    getLines ms.length (ms.flatMap putMeta ++ rest) old = some (old ++ renumber old.length ms, rest) := by
  induction ms with
  | nil => intro old; simp [getLines, renumber]
  | cons m ms ih =>
    intro old
    obtain ⟨h1, h2, h3⟩ := hm m (by simp)
    rw [List.length_cons, getLines, List.flatMap_cons, List.append_assoc, read_append (length_putMeta m)]
    simp only [Option.bind_eq_bind, Option.bind_some]
    have e0 : ((putMeta m).headD 0 != 0) = m.sp := by
      cases h : m.sp <;> simp [putMeta, h]
    have e1 : getLE (((putMeta m).drop 1).take 8) = m.ent :=
      field (a := [if m.sp then 1 else 0]) rfl h1
    have e2 : getLE (((putMeta m).drop 9).take 8) = m.rel := by
      have := field (x := m.rel) (b := putLE 8 m.size) (a := (if m.sp then 1 else 0) :: putLE 8 m.ent) (n := 9) (by simp [length_putLE]) h2
      simpa [putMeta] using this
    have e3 : getLE (((putMeta m).drop 17).take 8) = m.size := by
      have := field (x := m.size) (b := []) (a := (if m.sp then 1 else 0) :: (putLE 8 m.ent ++ putLE 8 m.rel)) (n := 17) (by simp [length_putLE]) h3
      simpa [putMeta] using this
    rw [e0, e1, e2, e3, ih (fun x hx => hm x (by simp [hx]))]
    simp [addSubgraph, renumber]

theorem metas_read {ms : List Meta} (hm : ∀ m ∈ ms, FitsMeta m) (hl : ms.length < 2 ^ 64) (rest : List Nat) (old : List Meta) :
    getMetas (putMetas ms ++ rest) old = some (old ++ renumber old.length ms, rest) := by
  rw [getMetas, putMetas, List.append_assoc, read_append (length_putLE 8 _)]
  simp only [Option.bind_eq_bind, Option.bind_some]
  rw [getLE_putLE 8 _ (by simpa using hl), lines ms hm]

theorem rest_read (ps : List Nat) (hp : ∀ x ∈ ps, x < 2 ^ 64) : ∀ (fuel : Nat) (old : List Nat), ps.length ≤ fuel →
    getRest fuel (ps.flatMap (putLE 8)) old = old ++ ps := by
  induction ps with
  | nil =>
    intro fuel old _
    cases fuel <;> simp [getRest, readBytes]
  | cons x ps ih =>
    intro fuel old h
    cases fuel with
    | zero => simp at h
    | succ fuel =>
      rw [getRest, List.flatMap_cons, read_append (length_putLE 8 x)]
      simp only
      rw [ih (fun y hy => hp y (by simp [hy])) _ _ (by simpa using h), getLE_putLE 8 x (by simpa using hp x (by simp))]
      simp

theorem length_words (ps : List Nat) : (ps.flatMap (putLE 8)).length = 8 * ps.length := by
  induction ps with
  | nil => rfl
  | cons x ps ih => rw [List.flatMap_cons, List.length_append, ih, length_putLE, List.length_cons]; omega

theorem params_read (n : Nat) (hn : n < 2 ^ 32) (rest : List Nat) (ps : List Nat) (hp : ∀ x ∈ ps, x < 2 ^ 64) :
    ∀ (fuel i : Nat) (old : List Nat), i + ps.length = n → ps.length < fuel →
    getParams n fuel i (ps.flatMap (putLE 8) ++ rest) old = some (old ++ ps, rest) := by
  induction ps with
  | nil =>
    intro fuel i old hi hf
    cases fuel with
    | zero => simp at hf
    | succ fuel =>
      rw [getParams, if_neg (by simp at hi; omega)]
      simp
  | cons x ps ih =>
    intro fuel i old hi hf
    rw [List.length_cons] at hi hf
    cases fuel with
    | zero => omega
    | succ fuel =>
      rw [getParams, if_pos (by omega), List.flatMap_cons, List.append_assoc, read_append (length_putLE 8 x)]
      simp only
      rw [Nat.mod_eq_of_lt (by omega), ih (fun y hy => hp y (by simp [hy])) _ _ _ (by omega) (by omega),
        getLE_putLE 8 x (by simpa using hp x (by simp))]
      simp

/-- With 2^32 numbers or more the counter never gets there. -/
theorem params_none {n : Nat} (hn : 2 ^ 32 ≤ n) (fuel : Nat) : ∀ (i : Nat) (bs ps : List Nat), i < 2 ^ 32 →
    getParams n fuel i bs ps = none := by
  induction fuel with
  | zero => intro _ _ _ _; rfl
  | succ fuel ih =>
    intro i bs ps hi
    rw [getParams, if_pos (by omega)]
    split
    · rfl
    · exact ih _ _ _ (Nat.mod_lt _ (by decide))

/-! ## The specification -/

/-- The numbers fit in the types of the fields, and the id of a subgraph is its position (C122). -/
structure Fits (g : Store) : Prop where
  metas : ∀ m ∈ g.metas, FitsMeta m
  ids : ∀ (i : Nat) m, g.metas[i]? = some m → m.id = i
  number : g.metas.length < 2 ^ 64
  dim : g.dim < 2 ^ 16
  mincard : g.mincard < 2 ^ 64
  params : ∀ x ∈ g.params, x < 2 ^ 64
  variances : ∀ x ∈ g.variances, x < 2 ^ 64

/-- An object that was made to load a file. -/
def fresh : Store := ⟨[], 0, 0, [], []⟩

theorem renumber_same (ms : List Meta) : ∀ k, (∀ (i : Nat) m, ms[i]? = some m → m.id = k + i) → renumber k ms = ms := by
  induction ms with
  | nil => intro _ _; rfl
  | cons m ms ih =>
    intro k h
    have h0 := h 0 m rfl
    rw [renumber, ih (k + 1) fun i x hx => by have := h (i + 1) x (by simpa using hx); omega]
    cases m
    simp at h0
    simp [h0]

/-- Loading in any object. -/
theorem load_avg {g : Store} (hg : Fits g) (old : Store) :
    loadAvg (storeAvg g) old = some { old with
      metas := old.metas ++ renumber old.metas.length g.metas, dim := g.dim, mincard := g.mincard,
      params := old.params ++ g.params } := by
  rw [loadAvg, storeAvg, metas_read hg.metas hg.number]
  simp only [Option.bind_eq_bind, Option.bind_some]
  rw [← List.append_assoc, read_append (by simp [length_putBE])]
  simp only [Option.bind_some]
  rw [List.take_left' (length_putBE 2 _), List.drop_left' (length_putBE 2 _), List.take_of_length_le (by simp [length_putBE]),
    getBE_putBE (by simpa using hg.dim), getBE_putBE (by simpa using hg.mincard),
    rest_read _ hg.params _ _ (by rw [length_words]; omega)]

/-- **C123 (averages).** What was stored is loaded again, in a new object. -/
theorem C123_avg_partial {g : Store} (hg : Fits g) (hv : g.variances = []) : loadAvg (storeAvg g) fresh = some g := by
  rw [load_avg hg]
  cases g
  simp only at hv
  subst hv
  simp only [fresh, List.nil_append, List.length_nil]
  rw [renumber_same _ 0 fun i m h => by have := hg.ids i m h; omega]

/-- **C123 (variances).** What was stored is loaded again in a new object if there are less than 2^32 numbers. -/
theorem C123_var_partial {g : Store} (hg : Fits g) (hl : g.params.length = g.variances.length) (hn : g.params.length < 2 ^ 32) :
    ∃ bs, storeVar g = some bs ∧ loadVar bs fresh = some g := by
  refine ⟨_, by rw [storeVar, if_pos hl], ?_⟩
  rw [loadVar, metas_read hg.metas hg.number]
  simp only [Option.bind_eq_bind, Option.bind_some]
  rw [show ∀ a b c d : List Nat, a ++ (b ++ (c ++ d)) = (a ++ (b ++ c)) ++ d by simp, read_append (by simp [length_putBE])]
  simp only [Option.bind_some]
  have e : ∀ a b c : List Nat, a.length = 2 → b.length = 8 → (a ++ (b ++ c)).drop 10 = c := by
    intro a b c ha hb
    rw [← List.append_assoc, List.drop_left' (by simp [ha, hb])]
  rw [e _ _ _ (length_putBE 2 _) (length_putBE 8 _), List.take_left' (length_putBE 2 _), List.drop_left' (length_putBE 2 _),
    List.take_left' (length_putBE 8 _), List.take_of_length_le (by simp [length_putBE]),
    getBE_putBE (w := 8) (x := g.params.length) (by omega), getBE_putBE (w := 2) (x := g.dim) (by simpa using hg.dim),
    getBE_putBE (w := 8) (x := g.mincard) (by simpa using hg.mincard), params_read _ hn _ _ hg.params _ _ _ (by omega) (by rw [List.length_append, length_words]; omega)]
  simp only [Option.bind_some]
  rw [rest_read _ hg.variances _ _ (by rw [length_words]; omega)]
  rw [if_pos (by simpa [fresh] using hl)]
  simp only [fresh, List.nil_append, List.length_nil]
  rw [renumber_same _ 0 fun i m h => by have := hg.ids i m h; omega]

/-- **C123 (variances), violated.** With 2^32 numbers or more the file is written and cannot be
loaded: the counter of the loop has 32 bits. -/
theorem C123_var_violated {g : Store} (hg : Fits g) (hl : g.params.length = g.variances.length)
    (hn : 2 ^ 32 ≤ g.params.length) (h64 : g.params.length < 2 ^ 63) :
    ∃ bs, storeVar g = some bs ∧ ∀ old, loadVar bs old = none := by
  refine ⟨_, by rw [storeVar, if_pos hl], fun old => ?_⟩
  rw [loadVar, metas_read hg.metas hg.number]
  simp only [Option.bind_eq_bind, Option.bind_some]
  rw [show ∀ a b c d : List Nat, a ++ (b ++ (c ++ d)) = (a ++ (b ++ c)) ++ d by simp, read_append (by simp [length_putBE])]
  simp only [Option.bind_some]
  have e : ∀ a b c : List Nat, a.length = 2 → b.length = 8 → (a ++ (b ++ c)).drop 10 = c := by
    intro a b c ha hb
    rw [← List.append_assoc, List.drop_left' (by simp [ha, hb])]
  rw [e _ _ _ (length_putBE 2 _) (length_putBE 8 _), List.take_of_length_le (l := putBE 8 g.params.length) (by simp [length_putBE]),
    getBE_putBE (w := 8) (x := g.params.length) (by omega), params_none hn _ _ _ _ (by decide)]
  rfl

/-- **C123 (again), violated.** An object that has subgraphs keeps them when a file is loaded: it
never has what was stored. -/
theorem C123_again_violated {g old : Store} (hg : Fits g) (ho : old.metas ≠ []) :
    ∃ g', loadAvg (storeAvg g) old = some g' ∧ g'.metas.length = old.metas.length + g.metas.length ∧ g' ≠ g := by
  refine ⟨_, load_avg hg old, ?_⟩
  have hr : ∀ (ms : List Meta) k, (renumber k ms).length = ms.length := by
    intro ms
    induction ms with
    | nil => intro _; rfl
    | cons m ms ih => intro k; rw [renumber, List.length_cons, ih, List.length_cons]
  have hl : (old.metas ++ renumber old.metas.length g.metas).length = old.metas.length + g.metas.length := by
    rw [List.length_append, hr]
  refine ⟨hl, fun h => ?_⟩
  have h1 := congrArg (fun s : Store => s.metas.length) h
  simp only [hl] at h1
  have := List.length_pos_iff.2 ho
  omega

/-! ## A concrete case -/

def exG : Store := ⟨[⟨0, false, 300, 5, 2⟩, ⟨1, true, 2, 70000, 3⟩], 2, 1, [1, 15, 2 ^ 63, 85], []⟩

theorem exG_fits : Fits exG := by
  refine ⟨by unfold FitsMeta; decide, ?_, by decide, by decide, by decide, by decide, by decide⟩
  intro i m h
  match i, h with
  | 0, h => cases h; rfl
  | 1, h => cases h; rfl

example : loadAvg (storeAvg exG) fresh = some exG := C123_avg_partial exG_fits rfl

example : ∃ g', loadAvg (storeAvg exG) exG = some g' ∧ g'.metas.length = 4 ∧ g' ≠ exG :=
  C123_again_violated exG_fits (by decide)

def exH : Store := { exG with variances := [7, 8, 9, 2 ^ 62] }

theorem exH_fits : Fits exH := ⟨exG_fits.metas, exG_fits.ids, exG_fits.number, exG_fits.dim, exG_fits.mincard, exG_fits.params, by decide⟩

example : ∃ bs, storeVar exH = some bs ∧ loadVar bs fresh = some exH := C123_var_partial exH_fits rfl (by decide)

example : ∃ bs, storeVar { exG with params := List.replicate (2 ^ 32) 1, variances := List.replicate (2 ^ 32) 2 } = some bs ∧
    ∀ old, loadVar bs old = none := by
  refine C123_var_violated ⟨exG_fits.metas, exG_fits.ids, exG_fits.number, exG_fits.dim, exG_fits.mincard, ?_, ?_⟩ ?_ ?_ ?_
  · intro x hx; rw [List.eq_of_mem_replicate hx]; decide
  · intro x hx; rw [List.eq_of_mem_replicate hx]; decide
  · simp only [List.length_replicate]
  · simp only [List.length_replicate]; decide
  · simp only [List.length_replicate]; decide

end Trident.Subgraphs
