import Verif.Update.UpdaterProofs
/-!
# C23, C24, C29: updates
-/
namespace Trident
open Load Upd Diff3

/-! ## C29: the tables of an update keep every pair -/

/-- C29: the table of any key, in any of the six orders, of an update that was written and mapped again returns exactly the pairs of the
triples of the update, each once, sorted.  For ids below `2^32 - 1`, fewer than `2^24` triples, and files that stay below 2 GiB (see the
violations below). -/
theorem C29_tables_keep_pairs_partial (S : Sorts) (hS : S.Ok) (rnd : Nat → Nat → Bool × Bool) (glob : Nat → List UInt8) (ts : List T3)
    (hids : ∀ t ∈ ts, t.1 < 2 ^ 32 - 1 ∧ t.2.1 < 2 ^ 32 - 1 ∧ t.2.2 < 2 ^ 32 - 1) (hlen : ts.length < 2 ^ 24)
    (hsize : ∀ d : Order, (glob d.idx).length + 16 * ts.length < 2 ^ 31) (add : Bool) (m : Mem) (base : Nat → Nat)
    (hp : ∀ d : Order, Placed m (base d.idx) (fileOf (build S rnd glob ts) d.idx)) (d : Order) (k : Int) :
    ∃ out, ((openDiff add m base (build S rnd glob ts)).get d.idx k (-1) (-1)).Returns out ∧ out.Pairwise Pair.lt ∧
      ∀ p, p ∈ out ↔ ∃ t ∈ ts, d.key t.triple = k ∧ d.pair t.triple = p := by
  have hB : BuildOk S rnd glob ts := ⟨hS, hids, hlen, fun d => by have := build_length hS rnd glob ts hlen d; have := hsize d; omega⟩
  obtain ⟨out, ⟨_, a, b⟩, c⟩ := DiffOk_get d ((hB.diffOk add hp).at d) k none none (by simp) (by simp) (fun _ => rfl)
  refine ⟨out, a, b, fun p => (c p).trans ?_⟩
  constructor
  · rintro ⟨⟨t', h1, h2⟩, -⟩
    obtain ⟨t, ht, rfl⟩ := List.mem_map.1 h1
    exact ⟨t, ht, h2⟩
  · rintro ⟨t, ht, h2⟩
    exact ⟨⟨_, List.mem_map.2 ⟨t, ht, rfl⟩, h2⟩, by simp, by simp⟩

/-- C29, scans: going through all tables of an order returns the rows of exactly the triples of the update, each once, sorted. -/
theorem C29_scan_keeps_triples_partial (S : Sorts) (hS : S.Ok) (rnd : Nat → Nat → Bool × Bool) (glob : Nat → List UInt8) (ts : List T3)
    (hids : ∀ t ∈ ts, t.1 < 2 ^ 32 - 1 ∧ t.2.1 < 2 ^ 32 - 1 ∧ t.2.2 < 2 ^ 32 - 1) (hlen : ts.length < 2 ^ 24)
    (hsize : ∀ d : Order, (glob d.idx).length + 16 * ts.length < 2 ^ 31) (add : Bool) (m : Mem) (base : Nat → Nat)
    (hp : ∀ d : Order, Placed m (base d.idx) (fileOf (build S rnd glob ts) d.idx)) (d : Order) :
    ∃ out, ((openDiff add m base (build S rnd glob ts)).scan d.idx).Returns out ∧ out.Pairwise Row3.lt ∧
      ∀ r, r ∈ out ↔ ∃ t ∈ ts, d.row t.triple = r := by
  have hB : BuildOk S rnd glob ts := ⟨hS, hids, hlen, fun d => by have := build_length hS rnd glob ts hlen d; have := hsize d; omega⟩
  obtain ⟨out, ⟨_, a, b⟩, c⟩ := DiffOk_scan d ((hB.diffOk add hp).at d)
  refine ⟨out, a, b, fun p => (c p).trans ?_⟩
  constructor
  · rintro ⟨t', h1, h2⟩
    obtain ⟨t, ht, rfl⟩ := List.mem_map.1 h1
    exact ⟨t, ht, h2⟩
  · rintro ⟨t, ht, h2⟩
    exact ⟨_, List.mem_map.2 ⟨t, ht, rfl⟩, h2⟩

/-- C29: the bytes written for a key fit in the two blocks that are reserved before writing (diffindex3.cpp:1286-1340: 8 bytes per pair for
rows, 16 for columns), for fewer than `2^24` pairs. -/
theorem C29_blocks_fit_partial (rnd : Nat → Bool × Bool) (k : Nat) (t1 t2 : List Nat) (h1 : ∀ x ∈ t1, x < 2 ^ 64) (h2 : ∀ x ∈ t2, x < 2 ^ 64)
    (hl : t1.length = t2.length) (hn : t1.length < 2 ^ 24) (st : Out) :
    let c := if t1.length < 64 then (false, false) else rnd k
    (storeTables rnd st (k, t1, t2)).f1.length ≤ st.f1.length + (if c.1 then 16 else 8) * t1.length ∧
    (storeTables rnd st (k, t1, t2)).f2.length ≤ st.f2.length + (if c.2 then 16 else 8) * t1.length := by
  obtain ⟨a, b⟩ := enc_fits rnd (k, t1, t2) h1 h2 hl hn
  have f1 : (storeTables rnd st (k, t1, t2)).f1.length = st.f1.length + (enc1 rnd (k, t1, t2)).length := by
    rw [← List.length_append]; rfl
  have f2 : (storeTables rnd st (k, t1, t2)).f2.length = st.f2.length + (enc2 rnd (k, t1, t2)).length := by
    rw [← List.length_append]; rfl
  rw [f1, f2]
  exact ⟨Nat.add_le_add_left a _, Nat.add_le_add_left b _⟩

/-! ## C23: what an update stores -/

/-- C23: after any history of requests on a stored graph, an add request stores exactly the given triples that do not hold, each once. Nothing
is stored if there are none. -/
theorem C23_add_stores_new_partial (kb : KB) (g : List Triple) (h : Loaded kb g) (hg : g ≠ []) (hr : kb.Reads .spo) (E : UEnv) (hE : E.Ok) (S : Sorts) (hS : S.Ok)
    (rnd : Nat → Nat → Nat → Bool × Bool) (M : Nat → Disk → Mapping) (hM : ∀ n D, (M n D).Of D) (ops : List (Bool × List T3)) (hfit : OpsFit ops)
    (hvol : volume ops < 2 ^ 27) (hf : g.length + volume ops < E.fuel)
    (D : Disk) (hD : updates kb E S rnd M 0 Disk.empty ops = some D) (M' : Mapping) (hM' : M'.Of D) (rnd' : Nat → Nat → Bool × Bool) (input : List T3) :
    ∃ ts : List T3, update kb E S rnd' M' D true input = some (if ts.isEmpty then D else D.write S rnd' true ts) ∧ ts.Nodup ∧
      ∀ t, t ∈ ts ↔ t ∈ input ∧ ¬ holdsAfter (· ∈ g) (ops.map fun u => request u.1 u.2) t.triple := by
  obtain ⟨D', us', a, b, c, d⟩ := updates_spec h hE hS rnd hg hr hM ops 0 (DiskOk.empty g) hfit (by simpa using hvol) (by simpa using hf)
  rw [a] at hD
  obtain rfl : D' = D := by simpa using hD
  simp only [List.map_nil, List.sum_nil, Nat.zero_add] at c
  obtain ⟨ts, e1, e2, -, e4⟩ := update_spec h hE hS rnd' b hM' (by omega) hg hr true input
  exact ⟨ts, e1, e2, fun t => (e4 t).trans (by rw [if_pos rfl, d]; rfl)⟩

/-- C23: a delete request stores exactly the given triples that hold. -/
theorem C23_del_stores_existing_partial (kb : KB) (g : List Triple) (h : Loaded kb g) (hg : g ≠ []) (hr : kb.Reads .spo) (E : UEnv) (hE : E.Ok) (S : Sorts) (hS : S.Ok)
    (rnd : Nat → Nat → Nat → Bool × Bool) (M : Nat → Disk → Mapping) (hM : ∀ n D, (M n D).Of D) (ops : List (Bool × List T3)) (hfit : OpsFit ops)
    (hvol : volume ops < 2 ^ 27) (hf : g.length + volume ops < E.fuel)
    (D : Disk) (hD : updates kb E S rnd M 0 Disk.empty ops = some D) (M' : Mapping) (hM' : M'.Of D) (rnd' : Nat → Nat → Bool × Bool) (input : List T3) :
    ∃ ts : List T3, update kb E S rnd' M' D false input = some (if ts.isEmpty then D else D.write S rnd' false ts) ∧ ts.Nodup ∧
      ∀ t, t ∈ ts ↔ t ∈ input ∧ holdsAfter (· ∈ g) (ops.map fun u => request u.1 u.2) t.triple := by
  obtain ⟨D', us', a, b, c, d⟩ := updates_spec h hE hS rnd hg hr hM ops 0 (DiskOk.empty g) hfit (by simpa using hvol) (by simpa using hf)
  rw [a] at hD
  obtain rfl : D' = D := by simpa using hD
  simp only [List.map_nil, List.sum_nil, Nat.zero_add] at c
  obtain ⟨ts, e1, e2, -, e4⟩ := update_spec h hE hS rnd' b hM' (by omega) hg hr false input
  exact ⟨ts, e1, e2, fun t => (e4 t).trans (by simp only [Bool.false_eq_true, if_false]; rw [d]; rfl)⟩

/-- C23, the comparison alone: going through the sorted input and the sorted rows of the graph in parallel keeps exactly the input rows that
are not in the graph (or that are), whatever the two lists are. -/
theorem C23_match {σ : Type} (I : Itr σ Row3) (s : σ) (R : List Row3) (h : Yields I s R) (hR : R.Pairwise Row3.lt) (fuel : Nat) (hf : R.length < fuel)
    (add : Bool) (ts : List T3) (hts : ts.Pairwise fun a b => Row3.lt (Order.spo.row a.triple) (Order.spo.row b.triple)) (t : T3) :
    t ∈ matched I add fuel s ts ↔ t ∈ ts ∧ (if add then Order.spo.row t.triple ∉ R else Order.spo.row t.triple ∈ R) := by
  rw [matched_eq h hR hf hts, List.mem_filter]
  refine and_congr_right fun _ => ?_
  have e : rowOf t = Order.spo.row t.triple := rfl
  rw [← e]
  cases add
  · show (decide (rowOf t ∈ R)) = true ↔ _
    rw [decide_eq_true_eq]; rfl
  · show (decide (rowOf t ∉ R)) = true ↔ _
    rw [decide_eq_true_eq]; rfl

/-! ## C24: histories of updates -/

/-- C24 on a stored graph: after any history of add and delete requests, each written to disk and opened again at any addresses, any pattern
query in any order that can be read and has the fixed positions first returns the rows of exactly the triples that hold after the
history, each once, sorted. No request fails. -/
theorem C24_history_partial (kb : KB) (g : List Triple) (h : Loaded kb g) (hg : g ≠ []) (hr : kb.Reads .spo) (E : UEnv) (hE : E.Ok) (S : Sorts) (hS : S.Ok)
    (rnd : Nat → Nat → Nat → Bool × Bool) (M : Nat → Disk → Mapping) (hM : ∀ n D, (M n D).Of D) (ops : List (Bool × List T3)) (hfit : OpsFit ops)
    (hvol : volume ops < 2 ^ 27) (hf : g.length + volume ops < E.fuel) :
    ∃ D, updates kb E S rnd M 0 Disk.empty ops = some D ∧ ∀ M' : Mapping, M'.Of D → ∀ (q : Pattern) (_ : q.Wf) (d : Order) (_ : kb.Reads d)
      (_ : (q.at d.positions.2.1).isSome → (q.at d.positions.1).isSome) (_ : (q.at d.positions.2.2).isSome → (q.at d.positions.2.1).isSome),
      ∃ out, (kb.getIteratorU E (D.opened M') d.idx (argOfPos q.s) (argOfPos q.p) (argOfPos q.o)).Returns out ∧ out.Pairwise Row3.lt ∧
        ∀ r, r ∈ out ↔ ∃ t, holdsAfter (· ∈ g) (ops.map fun u => request u.1 u.2) t ∧ q.Matches t ∧ d.row t = r := by
  obtain ⟨D', us', a, b, c, d⟩ := updates_spec h hE hS rnd hg hr hM ops 0 (DiskOk.empty g) hfit (by simpa using hvol) (by simpa using hf)
  simp only [List.map_nil, List.sum_nil, Nat.zero_add] at c
  refine ⟨D', a, fun M' hM' q hq dd hd h1 h2 => ?_⟩
  obtain ⟨o1, o2⟩ := b.opened hM'
  obtain ⟨out, e1, e2, e3⟩ := updates_query h hE us' (D'.opened M') o1 dd (fun i x y => ⟨(o2 i x y).1, (o2 i x y).2.at _⟩) b.fresh (by omega) q hq hd h1 h2 (.inl hg)
  refine ⟨out, e1, e2, fun r => (e3 r).trans ?_⟩
  constructor
  · rintro ⟨t, ht, hm⟩; exact ⟨t, (d t).1 ht, hm⟩
  · rintro ⟨t, ht, hm⟩; exact ⟨t, (d t).2 ht, hm⟩

/-- C24 from the input to the answer: load any non-empty list of triples, update it by any history of requests, and query it with the index the
querier chooses. -/
theorem C24_load_update_query_partial (c : Config) (g : List T3) (h : c.Ok g) (hi : c.nindices = 3 ∨ c.nindices = 6) (hg : g ≠ [])
    (m : Mem) (Mm : Nat → Maps) (hMm : ∀ i, i < 6 → Mapped m (Mm i) (c.ins g i).store.files) (E : UEnv) (hE : E.Ok) (S : Sorts) (hS : S.Ok)
    (rnd : Nat → Nat → Nat → Bool × Bool) (M : Nat → Disk → Mapping) (hM : ∀ n D, (M n D).Of D) (ops : List (Bool × List T3)) (hfit : OpsFit ops)
    (hvol : volume ops < 2 ^ 27) (hf : g.length + volume ops < E.fuel) :
    ∃ D, updates (c.open' g m Mm) E S rnd M 0 Disk.empty ops = some D ∧ ∀ M' : Mapping, M'.Of D → ∀ (q : Pattern) (_ : q.Wf),
      ∃ d out, getIndex (argOfPos q.s) (argOfPos q.p) (argOfPos q.o) = Order.idx d ∧
        ((c.open' g m Mm).getIteratorU E (D.opened M') (getIndex (argOfPos q.s) (argOfPos q.p) (argOfPos q.o)) (argOfPos q.s) (argOfPos q.p) (argOfPos q.o)).Returns out ∧
        out.Pairwise Row3.lt ∧
        ∀ r, r ∈ out ↔ ∃ t, holdsAfter (· ∈ g.map T3.triple) (ops.map fun u => request u.1 u.2) t ∧ q.Matches t ∧ d.row t = r := by
  have hall : ∀ d, (c.open' g m Mm).Reads d := fun d => by
    unfold KB.Reads
    show permsOf c.nindices _ = true ∨ _ ∧ permsOf c.nindices _ = true
    rcases hi with e | e <;> rw [e] <;> cases d <;> decide
  obtain ⟨D, a, b⟩ := C24_history_partial (c.open' g m Mm) _ (h.loaded hMm) (by simpa using hg) (hall _) E hE S hS rnd M hM ops hfit hvol (by simpa using hf)
  refine ⟨D, a, fun M' hM' q hq => ?_⟩
  obtain ⟨d, e, h1, h2⟩ := C20_bound_first q hq
  obtain ⟨out, o1, o2, o3⟩ := b M' hM' q hq d (hall d) h1 h2
  exact ⟨d, out, e, by rw [e]; exact o1, o2, o3⟩

/-- C24 is false if the stored graph is empty: the updater scans the graph, which is undefined (`C21_empty_graph_violated`), so a
graph cannot be built by updates alone. -/
theorem C24_empty_base_violated (c : Config) (h : c.Ok []) (m : Mem) (Mm : Nat → Maps) (E : UEnv) (S : Sorts) (rnd : Nat → Nat → Bool × Bool) (M : Mapping)
    (add : Bool) (input : List T3) : update (c.open' [] m Mm) E S rnd M Disk.empty add input = none := by
  have hu : (c.open' [] m Mm).getIterator E.toEnv 0 (-1) (-1) (-1) = .undef := C21_empty_graph_violated c h m Mm E.toEnv
  have hp : (c.open' [] m Mm).present 0 = true := by
    show permsOf c.nindices 0 = true
    rcases h.nindices with e | e | e | e <;> rw [e] <;> decide
  have hs : Scan.init (c.open' [] m Mm) 0 = none := by
    unfold KB.getIterator at hu
    rw [if_pos (.inl hp)] at hu
    cases hs : Scan.init (c.open' [] m Mm) 0 with
    | none => rfl
    | some s => simp [permute, hs] at hu
  have hU : (c.open' [] m Mm).getIteratorU E (Disk.empty.opened M) 0 (-1) (-1) (-1) = .undef := by
    unfold KB.getIteratorU
    rw [if_pos (.inl hp)]
    simp [permute, hs]
  unfold update pending
  rw [hU]
  rfl

/-! ## The hypotheses are met -/

/-- Merge sort of scans by row. -/
def msort3 : Sorter3 := fun cs l => l.mergeSort fun a b => decide (¬ Row3.lt ((fam3Itr cs).val b) ((fam3Itr cs).val a))

theorem msort3_spec (cs : List Obj3) : CScan.SortSpec (fam3Itr cs) (msort3 cs) where
  perm l := List.mergeSort_perm _ _
  sorted l := by
    have := List.pairwise_mergeSort (le := fun a b => decide (¬ Row3.lt ((fam3Itr cs).val b) ((fam3Itr cs).val a)))
      (by intro a b c; simp only [decide_eq_true_eq]; simp only [Row3.lt, Pair.lt]; omega)
      (by intro a b; rw [Bool.or_eq_true, decide_eq_true_eq, decide_eq_true_eq]; simp only [Row3.lt, Pair.lt]; omega) l
    exact this.imp fun h => by simpa using h

/-- Sorting functions for updates. -/
def msorts : Sorts where
  byKey := sortRows
  words l := l.mergeSort fun a b => decide (a ≤ b)
  triples := sortRows

theorem msorts_ok : msorts.Ok where
  byKey l := ⟨(sortRows_sorts l).2, (sortRows_sorts l).1.imp fun h => by unfold rowLe at h; omega⟩
  words l := ⟨List.mergeSort_perm _ _, by
    have := List.pairwise_mergeSort (le := fun a b : Nat => decide (a ≤ b)) (by intro a b c; simp; omega) (by intro a b; simp; omega) l
    exact this.imp fun h => by simpa using h⟩
  triples := sortRows_sorts

def exEnv : UEnv := ⟨⟨isort, msort, 100⟩, msort3⟩

theorem exEnv_ok : exEnv.Ok := ⟨isort_sorts, msort_spec, msort3_spec⟩

/-- Delete two triples (one does not exist), add three (one exists, one twice), delete one of the added ones. -/
def exOps : List (Bool × List T3) := [(false, [(7, 1, 300), (9, 9, 9)]), (true, [(2, 1, 5), (2, 4, 7), (3, 1, 8), (2, 1, 5)]), (false, [(3, 1, 8)])]

/-- The example: after the updates, the triples with predicate 1 are the following three. -/
example : ∃ m Mm M M' D out, (∀ i, i < 6 → Mapped m (Mm i) (exConfig.ins exGraph i).store.files) ∧
    updates (exConfig.open' exGraph m Mm) exEnv msorts (fun _ _ _ => (true, false)) M 0 Disk.empty exOps = some D ∧ M'.Of D ∧
    ((exConfig.open' exGraph m Mm).getIteratorU exEnv (D.opened M') (getIndex (-1) 1 (-1)) (-1) 1 (-1)).Returns out ∧
    out.Pairwise Row3.lt ∧ ∀ r, r ∈ out ↔ r = (1, 2, 5) ∨ r = (1, 2, 70000) ∨ r = (1, 7, 2) := by
  obtain ⟨m, Mm, hMm⟩ := exists_mapped fun i => (exConfig.ins exGraph i).store.files
  have hM := fun (_ : Nat) (D : Disk) => Classical.choose_spec (exists_mapping D)
  obtain ⟨D, hD, hq⟩ := C24_load_update_query_partial exConfig exGraph exOk (.inr rfl) (by decide) m Mm hMm exEnv exEnv_ok msorts msorts_ok
    (fun _ _ _ => (true, false)) _ hM exOps ⟨by decide, by decide⟩ (by decide) (by decide)
  obtain ⟨M', hM'⟩ := exists_mapping D
  obtain ⟨d, out, a, b, c, e⟩ := hq M' hM' ⟨none, some 1, none⟩ (by intro x v hv; cases x <;> simp [Pattern.at] at hv; omega)
  have hd : d = .pso := by
    cases d <;> first | rfl | exact absurd a (by decide)
  subst hd
  refine ⟨m, Mm, _, M', D, out, hMm, hD, hM', b, c, fun r => (e r).trans ?_⟩
  have hh : ∀ t : Triple, holdsAfter (· ∈ exGraph.map T3.triple) (exOps.map fun u => request u.1 u.2) t ↔
      t = ⟨2, 1, 70000⟩ ∨ t = ⟨2, 4, 7⟩ ∨ t = ⟨7, 1, 2⟩ ∨ t = ⟨2, 1, 5⟩ := by
    intro t
    show ((t ∈ exGraph.map T3.triple ∧ t ∉ [(7, 1, 300), (9, 9, 9)].map T3.triple) ∨ t ∈ [(2, 1, 5), (2, 4, 7), (3, 1, 8), (2, 1, 5)].map T3.triple) ∧
      t ∉ [(3, 1, 8)].map T3.triple ↔ _
    simp only [exGraph, List.map_cons, List.map_nil, List.mem_cons, List.not_mem_nil, or_false, T3.triple]
    constructor
    · rintro ⟨⟨h1 | h1 | h1 | h1 | h1, h2⟩ | h1 | h1 | h1 | h1, h3⟩ <;> subst h1 <;> revert h3 <;> (try revert h2) <;> decide
    · rintro (h | h | h | h) <;> subst h <;> decide
  have hmt : ∀ t : Triple, (⟨none, some 1, none⟩ : Pattern).Matches t ↔ t.p = 1 := by
    intro t
    rw [matches_iff .pso]
    simp [Pattern.at, Order.positions, Order.key, Triple.at]
  simp only [hh, hmt]
  constructor
  · rintro ⟨t, h1 | h1 | h1 | h1, h2, h3⟩ <;> subst h1 <;> subst h3 <;> revert h2 <;> decide
  · rintro (h | h | h) <;> subst h
    · exact ⟨_, .inr (.inr (.inr rfl)), rfl, rfl⟩
    · exact ⟨_, .inl rfl, rfl, rfl⟩
    · exact ⟨_, .inr (.inr (.inl rfl)), rfl, rfl⟩

/-- The example for C23: the add request of the history stores two of its triples. -/
example : ∃ m Mm M M' D, ∃ ts : List T3, (∀ i, i < 6 → Mapped m (Mm i) (exConfig.ins exGraph i).store.files) ∧
    updates (exConfig.open' exGraph m Mm) exEnv msorts (fun _ _ _ => (true, false)) M 0 Disk.empty [(false, [(7, 1, 300), (9, 9, 9)])] = some D ∧
    update (exConfig.open' exGraph m Mm) exEnv msorts (fun _ _ => (true, false)) M' D true [(2, 1, 5), (2, 4, 7), (7, 1, 300), (2, 1, 5)] =
      some (D.write msorts (fun _ _ => (true, false)) true ts) ∧ ts.Nodup ∧ ∀ t, t ∈ ts ↔ t = (2, 1, 5) ∨ t = (7, 1, 300) := by
  obtain ⟨m, Mm, hMm⟩ := exists_mapped fun i => (exConfig.ins exGraph i).store.files
  have hM := fun (_ : Nat) (D : Disk) => Classical.choose_spec (exists_mapping D)
  have hall : (exConfig.open' exGraph m Mm).Reads .spo := .inl rfl
  obtain ⟨D, hD, -⟩ := C24_history_partial (exConfig.open' exGraph m Mm) _ (exOk.loaded hMm) (by decide) hall exEnv exEnv_ok msorts msorts_ok
    (fun _ _ _ => (true, false)) _ hM [(false, [(7, 1, 300), (9, 9, 9)])] ⟨by decide, by decide⟩ (by decide) (by decide)
  obtain ⟨M', hM'⟩ := exists_mapping D
  obtain ⟨ts, a, b, c⟩ := C23_add_stores_new_partial (exConfig.open' exGraph m Mm) _ (exOk.loaded hMm) (by decide) hall exEnv exEnv_ok msorts msorts_ok
    (fun _ _ _ => (true, false)) _ hM _ ⟨by decide, by decide⟩ (by decide) (by decide) D hD M' hM' (fun _ _ => (true, false)) [(2, 1, 5), (2, 4, 7), (7, 1, 300), (2, 1, 5)]
  have hc : ∀ t, t ∈ ts ↔ t = (2, 1, 5) ∨ t = (7, 1, 300) := by
    intro t
    rw [c]
    constructor
    · rintro ⟨h1, h2⟩
      simp only [List.mem_cons, List.not_mem_nil, or_false] at h1
      rcases h1 with h1 | h1 | h1 | h1 <;> subst h1
      · exact .inl rfl
      · exact absurd (show _ ∧ _ from ⟨by decide, by decide⟩) h2
      · exact .inr rfl
      · exact .inl rfl
    · rintro (h | h) <;> subst h
      · refine ⟨by decide, ?_⟩
        show ¬ (_ ∧ _)
        rintro ⟨h1, -⟩
        exact absurd h1 (by decide)
      · refine ⟨by decide, ?_⟩
        show ¬ (_ ∧ _)
        rintro ⟨-, h1⟩
        exact absurd h1 (by decide)
  have hne : ts.isEmpty = false := by
    cases hts : ts with
    | nil => rw [hts] at hc; exact absurd ((hc (2, 1, 5)).2 (.inl rfl)) List.not_mem_nil
    | cons => rfl
  rw [hne] at a
  exact ⟨m, Mm, _, M', D, ts, hMm, hD, a, b, hc⟩

/-! ## Claims found false -/

theorem build_single {S : Sorts} (hS : S.Ok) (rnd : Nat → Nat → Bool × Bool) (t : T3) (i : Nat) : build S rnd (fun _ => []) [t] i =
    storeTables (fun _ => (false, false)) ⟨[], [], []⟩ ((permRow i t).1, [pack (permRow i t).2.1 (permRow i t).2.2], [pack (permRow i t).2.2 (permRow i t).2.1]) := by
  have h1 : S.byKey [permRow i t] = [permRow i t] := List.perm_singleton.1 (hS.byKey _).1
  have h2 : ∀ x, S.words [x] = [x] := fun x => List.perm_singleton.1 (hS.words _).1
  unfold build
  rw [if_pos (show [t].length < USEGLOBAL by unfold USEGLOBAL; simp)]
  show sortIndex S (rnd i) [] [] [permRow i t] = _
  unfold sortIndex
  rw [h1]
  simp only [tables, reduceCtorEq, if_false, List.nil_append, List.isEmpty_cons, Bool.false_eq_true, h2, List.foldl_cons, List.foldl_nil]
  unfold storeTables
  simp only [List.length_cons, List.length_nil, Nat.zero_add, if_pos (show 1 < 64 by omega)]

/-- C29 is false for ids of 33 bits: the two ids of a pair are packed in 64 bits; the triple (1, 2, 2^32 + 5) is read as (1, 3, 5). -/
theorem C29_large_id_violated (S : Sorts) (hS : S.Ok) (rnd : Nat → Nat → Bool × Bool) :
    ∃ m : Mem, Placed m 0 (Diff3.fileOf (build S rnd (fun _ => []) [(1, 2, 2 ^ 32 + 5)]) 0) ∧
    ((openDiff true m (fun _ => 0) (build S rnd (fun _ => []) [(1, 2, 2 ^ 32 + 5)])).get 0 1 (-1) (-1)).Returns [(3, 5)] := by
  have hb := build_single hS rnd (1, 2, 2 ^ 32 + 5) 0
  generalize build S rnd (fun _ => []) [(1, 2, 2 ^ 32 + 5)] = B at hb
  have hk : (B 0).f1 = [3, 5] ∧ (B 0).keys.map (fun k => ((k.key : Int), k.coord false)) = [(1, ⟨128, 1, 0, 0⟩)] := by
    rw [hb]
    decide +kernel
  refine ⟨memOf [3, 5], ?_, ?_⟩
  · rw [Diff3.fileOf, if_pos (by decide), hk.1]
    exact placed_memOf _
  · have e : (openDiff true (memOf [3, 5]) (fun _ => 0) B).get 0 1 (-1) (-1) = openTab (memOf [3, 5]) 0 ⟨128, 1, 0, 0⟩ none none := by
      have ht : (openDiff true (memOf [3, 5]) (fun _ => 0) B).tree 0 = [(1, ⟨128, 1, 0, 0⟩)] := hk.2
      unfold Diff.get
      rw [ht]
      rfl
    rw [e]
    show Yields _ _ _
    rw [yields_cons, yields_nil]
    decide +kernel

/-- C29 is false for the pair (0, 2^32 - 1): it equals the value the loops start with, and is dropped if it is the first of its key. The
triple (1, 0, 2^32 - 1) is lost. -/
theorem C29_first_pair_violated (S : Sorts) (hS : S.Ok) (rnd : Nat → Nat → Bool × Bool) :
    ∃ m : Mem, Placed m 0 (Diff3.fileOf (build S rnd (fun _ => []) [(1, 0, 2 ^ 32 - 1)]) 0) ∧
    ((openDiff true m (fun _ => 0) (build S rnd (fun _ => []) [(1, 0, 2 ^ 32 - 1)])).get 0 1 (-1) (-1)).Returns [] := by
  have hb := build_single hS rnd (1, 0, 2 ^ 32 - 1) 0
  generalize build S rnd (fun _ => []) [(1, 0, 2 ^ 32 - 1)] = B at hb
  have hk : (B 0).f1 = [] ∧ (B 0).keys.map (fun k => ((k.key : Int), k.coord false)) = [(1, ⟨132, 0, 0, 0⟩)] := by
    rw [hb]
    decide +kernel
  refine ⟨memOf [], ?_, ?_⟩
  · rw [Diff3.fileOf, if_pos (by decide), hk.1]
    exact placed_memOf _
  · have e : (openDiff true (memOf []) (fun _ => 0) B).get 0 1 (-1) (-1) = openTab (memOf []) 0 ⟨132, 0, 0, 0⟩ none none := by
      have ht : (openDiff true (memOf []) (fun _ => 0) B).tree 0 = [(1, ⟨132, 0, 0, 0⟩)] := hk.2
      unfold Diff.get
      rw [ht]
      rfl
    rw [e]
    show Yields _ _ _
    rw [yields_nil]
    decide +kernel

end Trident
