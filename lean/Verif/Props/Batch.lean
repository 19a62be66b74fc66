import Verif.Ml.BatchProofs
/-!
# Properties C108 and C109: batches of triples

`BatchCreator` of /repo/src/trident/ml/batch.cpp and the class `Batcher` of the Python module, /repo/src/python/batcher.cpp.
-/
namespace Trident.Batch

/-- So many records leave three bytes free in the last page of 4096 bytes, and there is at least one. -/
def Slack (n : Nat) : Prop := 15 * n % 4096 ≠ 0 ∧ 15 * n % 4096 < 4094

theorem startFile_none (preds : Option (List Nat)) (graph : List Triple) : startFile none preds graph = fileOf (graph.map (stored preds)) := by
  obtain ⟨V, U, T, e, hp, h1, h2⟩ := createInput_eq preds false false (graph.map fun t => (t, false, false)) ⟨[], [], []⟩
  have : ∀ (l : List Triple) (f : Parts), (createInput preds false false (l.map fun t => (t, false, false)) f).train = f.train ++ fileOf (l.map (stored preds)) := by
    intro l
    induction l with
    | nil => intro f; simp [createInput, fileOf]
    | cons t l ih =>
      intro f
      simp only [List.map_cons, createInput, Bool.and_self, Bool.false_eq_true, if_false]
      rw [ih]
      simp [fileOf]
  rw [startFile, this]
  simp

/-- A creator after `start` on a graph, in the order of the index, with all ids below 2^40. -/
structure Started (c : Creator) (preds : Option (List Nat)) (graph : List Triple) : Prop where
  raw : c.raw = startFile none preds graph
  order : Shuffled c
  size : 0 < c.batchsize
  fits : ∀ t ∈ graph, Fits (stored preds t)
  slack : Slack graph.length

theorem Started.runs {c : Creator} {preds : Option (List Nat)} {graph : List Triple} (h : Started c preds graph) :
    c.raw = fileOf (graph.map (stored preds)) ∧ Runs c fun i => (graph.map (stored preds)).getD i (0, 0, 0) := by
  have hr : c.raw = fileOf (graph.map (stored preds)) := by rw [h.raw, startFile_none]
  refine ⟨hr, runs_of hr h.order h.size (fun t ht => ?_) (by rw [List.length_map]; exact h.slack)⟩
  obtain ⟨x, hx, rfl⟩ := List.mem_map.1 ht
  exact h.fits x hx

/-! ## C108: an epoch -/

/-- **C108 (epoch, part).** However the triples are shuffled, the batches until there is no further one have each triple of the graph exactly once, the last batch is not larger than the size of batches, and the
others have that size.  Missing: graphs whose file ends near the end of a page (`C108_page_violated`), files that exist already (`C108_stale_violated`), `getBatch` with one
column (`C108_one_violated`). -/
theorem C108_epoch_partial {c : Creator} {preds : Option (List Nat)} {graph : List Triple} (h : Started c preds graph) (hf : c.filter = none) :
    (∃ bs, Epoch c bs) ∧ ∀ bs, Epoch c bs → bs.flatten.Perm (graph.map (stored preds)) ∧ (∀ b ∈ bs, b.length ≤ c.batchsize) ∧ ∀ b ∈ bs.dropLast, b.length = c.batchsize := by
  obtain ⟨hr, hruns⟩ := h.runs
  have hc : c.currentidx ≤ c.indices.length := by rw [h.order.2]; omega
  refine ⟨epoch_ends hruns hc, fun bs hb => ?_⟩
  obtain ⟨h1, h2, h3⟩ := epoch_eq hruns hc hb
  refine ⟨?_, h2, h3⟩
  rw [h1, h.order.2, List.drop_zero, List.filter_eq_self.2 fun t _ => by simp [Creator.uses, hf]]
  exact indices_perm hr h.order

/-- **C108 (filter, part).** With a filter, the batches have each triple that the filter accepts exactly once.  Missing: as for `C108_epoch_partial`. -/
theorem C108_filter_partial {c : Creator} {preds : Option (List Nat)} {graph : List Triple} (h : Started c preds graph) {accept : Triple → Bool} (hf : c.filter = some accept) :
    (∃ bs, Epoch c bs) ∧ ∀ bs, Epoch c bs → bs.flatten.Perm ((graph.map (stored preds)).filter accept) ∧ (∀ b ∈ bs, b.length ≤ c.batchsize) ∧ ∀ b ∈ bs.dropLast, b.length = c.batchsize := by
  obtain ⟨hr, hruns⟩ := h.runs
  have hc : c.currentidx ≤ c.indices.length := by rw [h.order.2]; omega
  refine ⟨epoch_ends hruns hc, fun bs hb => ?_⟩
  obtain ⟨h1, h2, h3⟩ := epoch_eq hruns hc hb
  refine ⟨?_, h2, h3⟩
  have hu : c.uses = accept := by funext t; simp [Creator.uses, hf]
  rw [h1, h.order.2, List.drop_zero, hu]
  exact (indices_perm hr h.order).filter _

/-- **C108 (numbered batches, part).** The batches with the numbers below `getNBatches` have each triple exactly once, and none is empty.
Missing: creators with a filter (`C108_number_violated`), otherwise as for `C108_epoch_partial`. -/
theorem C108_number_partial {c : Creator} {preds : Option (List Nat)} {graph : List Triple} (h : Started c preds graph) (hf : c.filter = none) :
    ∃ bs : List (List Triple), (List.range (nBatches c)).map (getBatchNr c) = bs.map some ∧ bs.flatten.Perm (graph.map (stored preds)) ∧ ∀ b ∈ bs, b ≠ [] ∧ b.length ≤ c.batchsize := by
  obtain ⟨hr, hruns⟩ := h.runs
  obtain ⟨hcov, hlt⟩ := nBatches_covers (c := c) h.size
  refine ⟨((List.range (nBatches c)).map fun nr => (c.indices.drop (nr * c.batchsize)).take c.batchsize).map (List.map fun i => (graph.map (stored preds)).getD i (0, 0, 0)), ?_, ?_, ?_⟩
  · rw [List.map_map, List.map_map]
    exact List.map_congr_left fun nr _ => batchNr_eq hruns hf nr
  · rw [← List.map_flatten, chunks_flatten, List.take_of_length_le hcov]
    exact indices_perm hr h.order
  · intro b hb
    simp only [List.mem_map, List.mem_range] at hb
    obtain ⟨_, ⟨nr, hn, rfl⟩, rfl⟩ := hb
    refine ⟨fun e => ?_, by simp; omega⟩
    have := congrArg List.length e
    have h1 := hlt nr hn
    have h2 := h.size
    simp only [List.length_map, List.length_take, List.length_drop, List.length_nil] at this
    omega

/-- **C108 (predicates).** If the predicates have no ids of their own, they are numbered from 0 on, different ones differently. -/
theorem C108_rank {preds : List Nat} {p q : Nat} (hp : p ∈ preds) (hq : q ∈ preds) : rank preds p < preds.length ∧ preds[rank preds p]? = some p ∧ (rank preds p = rank preds q → p = q) := by
  have e : ∀ {p}, p ∈ preds → preds[rank preds p]? = some p := fun {p} hp => by
    rw [rank, if_pos hp, List.getElem?_eq_getElem (List.idxOf_lt_length_iff.2 hp), List.getElem_idxOf]
  refine ⟨by rw [rank, if_pos hp]; exact List.idxOf_lt_length_iff.2 hp, e hp, fun h => ?_⟩
  have h1 := e hp
  rw [h, e hq] at h1
  exact (Option.some.inj h1).symm

/-- **C108 (page, violated).** If the file fills its last page, or up to two bytes of it, then reading the last triple reads behind the page: no epoch ends.  This is so for 4096 triples. -/
theorem C108_page_violated {c : Creator} {n : Nat} (hl : c.raw.length = 15 * (n + 1)) (hs : Shuffled c) (hb : 0 < c.batchsize) (hf : c.filter = none)
    (h : 15 * (n + 1) % 4096 = 0 ∨ 4094 ≤ 15 * (n + 1) % 4096) (bs : List (List Triple)) : ¬ Epoch c bs := by
  have hbad := last_undefined hl h
  have hn : n ∈ c.indices.drop c.currentidx := by
    rw [hs.2, List.drop_zero]
    refine (hs.1.mem_iff).2 (List.mem_range.2 ?_)
    rw [hl]; omega
  have hfill : ∀ k l, (∃ r, fill c.raw c.uses k l = some r ∧ (n ∈ l → n ∈ r.2) ∧ (k ≠ 0 → l ≠ [] → r.1 ≠ [])) ∨ fill c.raw c.uses k l = none := by
    intro k l
    induction l generalizing k with
    | nil => cases k <;> exact Or.inl ⟨_, rfl, by simp⟩
    | cons i l ih =>
      cases k with
      | zero => exact Or.inl ⟨_, rfl, by simp⟩
      | succ k =>
        rcases hg : getAt c.raw i with _ | t
        · exact Or.inr (by simp [fill, hg])
        · have hu : c.uses t = true := by simp [Creator.uses, hf]
          have hin : n ≠ i := fun e => by rw [← e, hbad] at hg; cases hg
          rcases ih k with ⟨r, e, h1, _⟩ | e
          · exact Or.inl ⟨(t :: r.1, r.2), by simp [fill, hg, hu, e], fun hm => h1 (by rcases List.mem_cons.1 hm with e | e; exact absurd e hin; exact e), by simp⟩
          · exact Or.inr (by simp [fill, hg, hu, e])
  have hdrop : ∀ k l r, fill c.raw c.uses k l = some r → ∃ m, m ≤ l.length ∧ r.2 = l.drop m := by
    intro k l
    induction l generalizing k with
    | nil => intro r e; cases k <;> (simp only [fill, Option.some.injEq] at e; exact ⟨0, by simp, by rw [← e]; rfl⟩)
    | cons i l ih =>
      intro r e
      cases k with
      | zero => simp only [fill, Option.some.injEq] at e; exact ⟨0, by simp, by rw [← e]; rfl⟩
      | succ k =>
        simp only [fill] at e
        rcases hg : getAt c.raw i with _ | t
        · rw [hg] at e; cases e
        · have hu : c.uses t = true := by simp [Creator.uses, hf]
          simp only [hg, hu, if_true] at e
          rcases he : fill c.raw c.uses k l with _ | r'
          · rw [he] at e; cases e
          · rw [he] at e
            simp only [Option.map_some, Option.some.injEq] at e
            obtain ⟨m, h1, h2⟩ := ih k r' he
            exact ⟨m + 1, by simpa using h1, by rw [← e, h2]; rfl⟩
  clear hl h
  intro he
  generalize hcc : c = c0 at he
  have key : ∀ c0 : Creator, c0.raw = c.raw → c0.uses = c.uses → c0.batchsize = c.batchsize → n ∈ c0.indices.drop c0.currentidx → ¬ ∃ bs, Epoch c0 bs := by
    intro c0 h1 h2 h3 h4 ⟨bs, he⟩
    clear hcc
    induction he with
    | @stop c0 c' e =>
      rcases hfill c0.batchsize (c0.indices.drop c0.currentidx) with ⟨r, e', _, k2⟩ | e'
      · simp only [getBatch, h1, h2, e', Option.map_some, Option.some.injEq, Prod.mk.injEq] at e
        exact k2 (by omega) (List.ne_nil_of_mem h4) e.1
      · simp [getBatch, h1, h2, e'] at e
    | @batch c0 c' t b l e _ ih =>
      rcases hfill c0.batchsize (c0.indices.drop c0.currentidx) with ⟨r, e', k1, _⟩ | e'
      · obtain ⟨m, hm, hr⟩ := hdrop _ _ _ e'
        simp only [getBatch, h1, h2, e', Option.map_some, Option.some.injEq, Prod.mk.injEq] at e
        obtain ⟨_, rfl⟩ := e
        refine ih rfl h2 h3 ?_
        have := k1 h4
        rw [hr, List.drop_drop] at this
        rw [hr, List.drop_drop, List.length_drop]
        simp only [List.length_drop] at hm
        have hlt : c0.currentidx + m ≤ c0.indices.length := by
          rcases Nat.lt_or_ge c0.currentidx c0.indices.length with g | g
          · omega
          · rw [List.drop_eq_nil_of_le g] at h4; cases h4
        rwa [show c0.indices.length - (c0.indices.length - (c0.currentidx + m)) = c0.currentidx + m by omega]
      · simp [getBatch, h1, h2, e'] at e
  exact key c0 (by rw [hcc]) (by rw [hcc]) (by rw [hcc]) (by rw [← hcc]; exact hn) ⟨bs, he⟩

/-- **C108 (files that exist, violated).** If the file of an earlier `start` is still there, the batches are those of that time, whatever the graph is now. -/
theorem C108_stale_violated (preds preds' : Option (List Nat)) (before now : List Triple) : startFile (some (startFile none preds before)) preds' now = fileOf (before.map (stored preds)) :=
  startFile_none preds before

/-- **C108 (one column, violated).** Without a filter, `getBatch` with one column returns nothing, for every graph. -/
theorem C108_one_violated {c : Creator} (hf : c.filter = none) : ∀ b c', getBatchOne c = some (b, c') → b = [] := by
  intro b c' e
  have key : ∀ k l r, fill c.raw (fun _ => false) k l = some r → r.1 = [] := by
    intro k l
    induction l with
    | nil => intro r e; cases k <;> (simp only [fill, Option.some.injEq] at e; rw [← e])
    | cons i l ih =>
      intro r e
      cases k with
      | zero => simp only [fill, Option.some.injEq] at e; rw [← e]
      | succ k =>
        simp only [fill, Bool.false_eq_true, if_false] at e
        split at e
        · cases e
        · exact ih r e
  simp only [getBatchOne, hf] at e
  rcases he : fill c.raw (fun _ => false) c.batchsize (c.indices.drop c.currentidx) with _ | r
  · rw [he] at e; cases e
  · rw [he] at e
    simp only [Option.map_some, Option.some.injEq, Prod.mk.injEq] at e
    rw [← e.1]; exact key _ _ _ he

/-- **C108 (arrays, violated).** The arrays of a batch change with the next `getbatch`: they show the next batch. -/
theorem C108_array_violated (old new : List Nat) (h : new.length = old.length) : overwritten old new = new := by
  rw [overwritten, List.drop_eq_nil_of_le (by omega), List.append_nil, List.take_of_length_le (by omega)]

/-! ## C109: the triples are split -/

/-- **C109 (split, part).** Whatever random numbers are drawn, each triple is in exactly one of the files for validation, test and training, and the files can be read.
Missing: files that end near the end of a page (`C109_page_violated`) and empty files (`C109_empty_violated`). -/
theorem C109_split_partial (preds : Option (List Nat)) (valid test : Bool) (draws : List (Triple × Bool × Bool)) (hfit : ∀ e ∈ draws, Fits (stored preds e.1)) :
    ∃ V U T, (V ++ (U ++ T)).Perm (draws.map fun e => stored preds e.1) ∧ (valid = false → V = []) ∧ (test = false → U = []) ∧
      (Slack V.length → loadTriples (createInput preds valid test draws ⟨[], [], []⟩).valid = some V) ∧
      (Slack U.length → loadTriples (createInput preds valid test draws ⟨[], [], []⟩).test = some U) ∧
      (Slack T.length → loadTriples (createInput preds valid test draws ⟨[], [], []⟩).train = some T) := by
  obtain ⟨V, U, T, e, hp, h1, h2⟩ := createInput_eq preds valid test draws ⟨[], [], []⟩
  have hall : ∀ t ∈ V ++ (U ++ T), Fits t := fun t ht => by
    obtain ⟨x, hx, rfl⟩ := List.mem_map.1 ((hp.mem_iff).1 ht)
    exact hfit x hx
  rw [e]
  refine ⟨V, U, T, hp, h1, h2, fun h => ?_, fun h => ?_, fun h => ?_⟩
  · exact loadTriples_eq (fun t ht => hall t (List.mem_append_left _ ht)) h
  · exact loadTriples_eq (fun t ht => hall t (List.mem_append_right _ (List.mem_append_left _ ht))) h
  · exact loadTriples_eq (fun t ht => hall t (List.mem_append_right _ (List.mem_append_right _ ht))) h

/-- **C109 (page, violated).** A file that fills its last page, or all but two bytes of it, cannot be read: the last number is read behind the page. -/
theorem C109_page_violated {raw : List Nat} {n : Nat} (hl : raw.length = 15 * (n + 1)) (h : 15 * (n + 1) % 4096 = 0 ∨ 4094 ≤ 15 * (n + 1) % 4096) : loadTriples raw = none := by
  unfold loadTriples
  split
  · rfl
  · exact loadFrom_undefined n 0 _ (by omega) (last_undefined hl h)

/-- **C109 (empty, violated).** If no triple is drawn for validation, its file cannot be read. -/
theorem C109_empty_violated : ∃ draws : List (Triple × Bool × Bool), loadTriples (createInput none true false draws ⟨[], [], []⟩).valid = none :=
  ⟨[((1, 2, 3), false, false)], by decide⟩

/-! ## The theorems are about something -/

/-- Three triples with the predicates 7 and 9, which get the numbers 0 and 1. -/
def exGraph : List Triple := [(1, 7, 2), (5, 7, 1099511627775), (300, 9, 4)]

/-- A creator for them. -/
def exCreator : Creator := ⟨startFile none (some [7, 9]) exGraph, 2, none, [2, 0, 1], 0⟩

theorem exStarted : Started exCreator (some [7, 9]) exGraph where
  raw := rfl
  order := ⟨by decide +kernel, rfl⟩
  size := by decide
  fits := by unfold Fits; decide +kernel
  slack := by unfold Slack; decide

example : ∃ bs, Epoch exCreator bs ∧ bs.flatten.Perm [(1, 0, 2), (5, 0, 1099511627775), (300, 1, 4)] := by
  obtain ⟨⟨bs, h⟩, h2⟩ := C108_epoch_partial exStarted rfl
  exact ⟨bs, h, (h2 bs h).1⟩

example : (getBatch exCreator).map (·.1) = some [(300, 1, 4), (1, 0, 2)] := by decide +kernel
example : getBatchNr exCreator 1 = some [(5, 0, 1099511627775)] := by decide +kernel

example : ∃ bs, Epoch { exCreator with filter := some fun t => t.2.1 == 0 } bs ∧ bs.flatten.Perm [(1, 0, 2), (5, 0, 1099511627775)] := by
  obtain ⟨⟨bs, h⟩, h2⟩ := C108_filter_partial (c := { exCreator with filter := some fun t => t.2.1 == 0 }) ⟨rfl, exStarted.order, exStarted.size, exStarted.fits, exStarted.slack⟩ rfl
  exact ⟨bs, h, (h2 bs h).1⟩

example : ∃ bs : List (List Triple), (List.range 2).map (getBatchNr exCreator) = bs.map some ∧ bs.flatten.Perm [(1, 0, 2), (5, 0, 1099511627775), (300, 1, 4)] := by
  obtain ⟨bs, h1, h2, _⟩ := C108_number_partial exStarted rfl
  exact ⟨bs, h1, h2⟩

/-- A graph with 4096 triples. -/
example (graph : List Triple) (h : graph.length = 4096) : ¬ ∃ bs, Epoch ⟨startFile none none graph, 100, none, List.range graph.length, 0⟩ bs := fun ⟨bs, he⟩ => by
  have hl : (startFile none none graph).length = 15 * (4095 + 1) := by rw [startFile_none, length_file, List.length_map, h]
  exact C108_page_violated (n := 4095) hl ⟨by show (List.range graph.length).Perm _; rw [hl, h], rfl⟩ (Nat.succ_pos _) rfl (Or.inl (by decide)) bs he

/-- **C108 (numbered batches with a filter, violated).** With a filter, a triple is in two of the numbered batches. -/
theorem C108_number_violated : ∃ c graph accept, Started c none graph ∧ c.filter = some accept ∧ graph.Nodup ∧ nBatches c = 2 ∧ getBatchNr c 0 = some [(2, 2, 2), (3, 3, 3)] ∧ getBatchNr c 1 = some [(3, 3, 3)] :=
  ⟨⟨startFile none none [(1, 1, 1), (2, 2, 2), (3, 3, 3)], 2, some fun t => t.1 != 1, [0, 1, 2], 0⟩, [(1, 1, 1), (2, 2, 2), (3, 3, 3)], fun t => t.1 != 1,
    ⟨rfl, ⟨by decide +kernel, rfl⟩, by decide, by unfold Fits; decide +kernel, by unfold Slack; decide⟩, rfl, by decide, by decide +kernel, by decide +kernel, by decide +kernel⟩

/-- The triples of the first example, with random numbers: one is for the test, one for validation, one for training. -/
def exDraws : List (Triple × Bool × Bool) := [((1, 7, 2), false, true), ((5, 7, 1099511627775), true, true), ((300, 9, 4), false, false)]

example : ∃ V U T : List Triple, (V ++ (U ++ T)).Perm exGraph ∧ (Slack V.length → loadTriples (createInput none true true exDraws ⟨[], [], []⟩).valid = some V) := by
  obtain ⟨V, U, T, hp, _, _, h1, _⟩ := C109_split_partial none true true exDraws (by unfold Fits; decide +kernel)
  exact ⟨V, U, T, hp, h1⟩

example : loadTriples (createInput none true true exDraws ⟨[], [], []⟩).valid = some [(5, 7, 1099511627775)] := by decide +kernel
example : loadTriples (createInput none true true exDraws ⟨[], [], []⟩).test = some [(1, 7, 2)] := by decide +kernel
example : loadTriples (createInput none true true exDraws ⟨[], [], []⟩).train = some [(300, 9, 4)] := by decide +kernel

end Trident.Batch
