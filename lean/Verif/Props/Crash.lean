import Verif.Update.CrashProofs
import Verif.Props.Update
/-!
# C27: interrupted updates
-/
namespace Trident
open Load Upd

/-- The triples `g` were stored, `ops` are the requests made since then, and `D` is the directory of updates now; `E` and `S` are the
sorting functions, `rnd` the random choices of the layout, `M` where the files were mapped each time the graph was opened. -/
structure AfterHistory (kb : KB) (g : List Triple) (E : UEnv) (S : Diff3.Sorts) (rnd : Nat → Nat → Nat → Bool × Bool) (M : Nat → Disk → Mapping)
    (ops : List (Bool × List T3)) (D : Disk) : Prop where
  loaded : Loaded kb g
  notEmpty : g ≠ []
  reads : kb.Reads .spo
  envOk : E.Ok
  sortsOk : S.Ok
  mapped : ∀ n D, (M n D).Of D
  done : updates kb E S rnd M 0 Disk.empty ops = some D

/-- The limits on the requests (see C29), and that the bound for the loops is large enough. -/
structure InLimits (g : List Triple) (E : UEnv) (ops : List (Bool × List T3)) : Prop where
  fit : OpsFit ops
  volume : volume ops < 2 ^ 27
  fuel : g.length + Upd.volume ops < E.fuel

/-- The triples that hold after the requests. -/
abbrev content (g : List Triple) (ops : List (Bool × List T3)) : Triple → Prop := holdsAfter (· ∈ g) (ops.map fun u => request u.1 u.2)

/-- Opened again at any addresses, the graph answers every query in the order `d` with exactly the triples in `P`, each once, sorted. (As everywhere, the
fixed positions of the pattern come first in the order.) -/
def Shows (kb : KB) (E : UEnv) (D : Disk) (d : Order) (P : Triple → Prop) : Prop :=
  ∀ M : Mapping, M.Of D → ∀ q : Pattern, q.Wf → ((q.at d.positions.2.1).isSome → (q.at d.positions.1).isSome) →
    ((q.at d.positions.2.2).isSome → (q.at d.positions.2.1).isSome) →
    ∃ out, (kb.getIteratorU E (D.opened M) d.idx (argOfPos q.s) (argOfPos q.p) (argOfPos q.o)).Returns out ∧ out.Pairwise Row3.lt ∧
      ∀ r, r ∈ out ↔ ∃ t, P t ∧ q.Matches t ∧ d.row t = r

/-! ## Helpers -/

theorem Loaded.congr {kb : KB} {g g' : List Triple} (h : Loaded kb g) (hm : ∀ t, t ∈ g' ↔ t ∈ g) : Loaded kb g' where
  keys t ht := h.keys t ((hm t).1 ht)
  partner := h.partner
  tables d k cs e h1 h2 := by
    obtain ⟨ps, a, b⟩ := h.tables d k cs e h1 h2
    refine ⟨ps, a, fun p => (b p).trans ?_⟩
    simp only [hm]
  complete d h1 h2 t ht := h.complete d h1 h2 t ((hm t).1 ht)
  files := h.files

theorem exists_nodup (g : List Triple) : ∃ g' : List Triple, g'.Nodup ∧ (∀ t, t ∈ g' ↔ t ∈ g) ∧ g'.length ≤ g.length := by
  induction g with
  | nil => exact ⟨[], .nil, fun t => Iff.rfl, Nat.le_refl _⟩
  | cons x g ih =>
    obtain ⟨g', a, b, c⟩ := ih
    by_cases hx : x ∈ g
    · refine ⟨g', a, fun t => ?_, by simp; omega⟩
      rw [b, List.mem_cons]
      exact ⟨.inr, fun h => h.elim (fun e => e ▸ hx) id⟩
    · refine ⟨x :: g', List.nodup_cons.2 ⟨fun h => hx ((b x).1 h), a⟩, fun t => ?_, by simp; omega⟩
      rw [List.mem_cons, List.mem_cons, b]

theorem holdsAfter_append (P : Triple → Prop) (us vs : List Update) : holdsAfter P (us ++ vs) = holdsAfter (holdsAfter P us) vs := by
  induction us generalizing P with
  | nil => rfl
  | cons u us ih => cases u <;> exact ih _

theorem volume_append (a b : List (Bool × List T3)) : volume (a ++ b) = volume a + volume b := by
  unfold volume; rw [List.map_append, List.sum_append]

theorem Upd.OpsFit.left {a b : List (Bool × List T3)} (h : OpsFit (a ++ b)) : OpsFit a :=
  ⟨fun u hu => h.ids u (List.mem_append.2 (.inl hu)), fun u hu => h.len u (List.mem_append.2 (.inl hu))⟩

/-- What a history leaves. -/
structure Facts (kb : KB) (g : List Triple) (E : UEnv) (ops : List (Bool × List T3)) (D : Disk) (g' : List Triple) (us : List Update) : Prop where
  loaded : Loaded kb g'
  nodup : g'.Nodup
  mem : ∀ t, t ∈ g' ↔ t ∈ g
  len : g'.length ≤ g.length
  ne : g' ≠ []
  disk : DiskOk g' D us
  vol : (us.map (·.triples.length)).sum ≤ volume ops
  sem : ∀ t, t ∈ applyAll g' us ↔ content g ops t

theorem AfterHistory.facts {kb g E S rnd M ops D} (H : AfterHistory kb g E S rnd M ops D) (L : InLimits g E ops) : ∃ g' us, Facts kb g E ops D g' us := by
  obtain ⟨g', a, b, c⟩ := exists_nodup g
  have hne : g' ≠ [] := by
    obtain ⟨t, ht⟩ := List.exists_mem_of_ne_nil _ H.notEmpty
    exact List.ne_nil_of_mem ((b t).2 ht)
  have hl := H.loaded.congr b
  have h1 := L.volume
  have h2 := L.fuel
  obtain ⟨D', us, r1, r2, r3, r4⟩ := updates_spec hl H.envOk H.sortsOk rnd hne H.reads H.mapped ops 0 (DiskOk.empty g') L.fit (by simpa using h1) (by simp; omega)
  rw [H.done] at r1
  obtain rfl : D' = D := by simpa using r1.symm
  refine ⟨g', us, hl, a, b, c, hne, r2, by simpa using r3, fun t => (r4 t).trans ?_⟩
  exact holdsAfter_congr b _ _

/-- A directory that holds fresh batches shows their effect. -/
theorem shows_of {kb : KB} {g : List Triple} (h : Loaded kb g) (hn : g.Nodup) (hg : g ≠ []) {E : UEnv} (hE : E.Ok) {D : Disk} {d : Order} {us : List Update}
    (hD : HoldsAt D d us) (hfr : FreshAll g us) (hf : g.length + (us.map (·.triples.length)).sum < E.fuel) (hd : kb.Reads d) {P : Triple → Prop}
    (hP : ∀ t, t ∈ applyAll g us ↔ P t) : Shows kb E D d P := by
  intro M hM q hq h1 h2
  obtain ⟨out, a, b, c⟩ := (hD.query h hn hE hM hf q hq hd h1 h2 (.inl hg)).1 (FreshAll.delOk _ hfr)
  refine ⟨out, a, strict_rows b (nodup_applyAll hn hfr) c, fun r => ?_⟩
  rw [c.mem_iff, List.mem_map]
  constructor
  · rintro ⟨t, x, y⟩
    obtain ⟨x, z⟩ := List.mem_filter.1 x
    exact ⟨t, (hP t).1 x, by simpa using z, y⟩
  · rintro ⟨t, x, y, z⟩
    exact ⟨t, List.mem_filter.2 ⟨(hP t).2 x, by simpa using y⟩, z⟩

/-- The interrupted request: the triples to store, and the directory. -/
theorem stopped_facts {kb g E S rnd M ops D} (H : AfterHistory kb g E S rnd M ops D) {add : Bool} {input : List T3} (L : InLimits g E (ops ++ [(add, input)]))
    {rnd' : Nat → Nat → Bool × Bool} {M' : Mapping} (hM' : M'.Of D) {j : Nat} {junk : Nat → List UInt8} {D' : Disk}
    (hD' : updateStopped kb E S rnd' M' D add input j junk = some D') :
    ∃ g' us, ∃ ts : List T3, Facts kb g E ops D g' us ∧ D' = (if ts.isEmpty then D else D.crashed S rnd' add ts j junk) ∧ ts.Nodup ∧ ts.length ≤ input.length ∧
      (∀ t, t ∈ ts ↔ t ∈ input ∧ (if add then ¬ content g ops (T3.triple t) else content g ops (T3.triple t))) ∧
      (∀ t ∈ ts, t.1 < 2 ^ 32 - 1 ∧ t.2.1 < 2 ^ 32 - 1 ∧ t.2.2 < 2 ^ 32 - 1) ∧ ts.length < 2 ^ 24 ∧
      (us.map (·.triples.length)).sum + ts.length < 2 ^ 27 ∧ g'.length + ((us.map (·.triples.length)).sum + ts.length) < E.fuel ∧
      (ts ≠ [] → j ≠ 0 → ∀ d, HoldsAt D' d (us ++ [crashBatch add ts j d])) := by
  have hv : volume (ops ++ [(add, input)]) = volume ops + input.length := by rw [volume_append]; rfl
  have l1 := L.volume
  have l2 := L.fuel
  rw [hv] at l1 l2
  obtain ⟨g', us, F⟩ := H.facts ⟨L.fit.left, by omega, by omega⟩
  have f1 := F.vol
  have f2 := F.len
  obtain ⟨ts, a, b, c, e⟩ := pending_spec F.loaded H.envOk H.sortsOk F.disk hM' (by omega) F.ne H.reads add input
  have hids : ∀ t ∈ ts, t.1 < 2 ^ 32 - 1 ∧ t.2.1 < 2 ^ 32 - 1 ∧ t.2.2 < 2 ^ 32 - 1 := fun t ht =>
    L.fit.ids (add, input) (by simp) t ((e t).1 ht).1
  have hlen : ts.length < 2 ^ 24 := by have : input.length < _ := L.fit.len (add, input) (by simp); omega
  have hD : D' = (if ts.isEmpty then D else D.crashed S rnd' add ts j junk) := by
    unfold updateStopped at hD'
    rw [a] at hD'
    simpa using hD'.symm
  refine ⟨g', us, ts, F, hD, b, c, ?_, hids, hlen, by omega, by omega, ?_⟩
  · intro t
    rw [e t]
    refine and_congr_right fun _ => ?_
    cases add <;> simp [F.sem]
  · intro hne hj d
    have : ts.isEmpty = false := by simpa using hne
    rw [hD, this]
    exact crashed_holds F.disk H.sortsOk rnd' add ts hids hlen (by omega) b j hj junk d

theorem sum_upd (us : List Update) (u : Update) : ((us ++ [u]).map (·.triples.length)).sum = (us.map (·.triples.length)).sum + u.triples.length := by simp

theorem triples_del (l : List Triple) : (Update.del l).triples = l := rfl

theorem applyAll_del_nil (g : List Triple) (us : List Update) : applyAll g (us ++ [.del []]) = applyAll g us := by
  rw [applyAll_append]; simp [Update.apply]

/-- If there is nothing to store, nothing changes. -/
theorem content_same {g : List Triple} {ops : List (Bool × List T3)} {add : Bool} {input : List T3}
    (h : ∀ t ∈ input, if add then content g ops (T3.triple t) else ¬ content g ops (T3.triple t)) (t : Triple) :
    content g (ops ++ [(add, input)]) t ↔ content g ops t := by
  unfold content
  rw [List.map_append, holdsAfter_append]
  cases add with
  | true =>
    show _ ∨ t ∈ input.map T3.triple ↔ _
    refine ⟨fun h' => h'.elim id fun h' => ?_, .inl⟩
    obtain ⟨x, hx, rfl⟩ := List.mem_map.1 h'
    exact h x hx
  | false =>
    show _ ∧ t ∉ input.map T3.triple ↔ _
    refine ⟨fun h' => h'.1, fun h' => ⟨h', fun h'' => ?_⟩⟩
    obtain ⟨x, hx, rfl⟩ := List.mem_map.1 h''
    exact h x hx h'

/-! ## The property -/

/-- C27, first part: an update that stops before the first of its three trees is written leaves the content as it was. -/
theorem C27_early_stop_partial (kb : KB) (g : List Triple) (E : UEnv) (S : Diff3.Sorts) (rnd : Nat → Nat → Nat → Bool × Bool) (M : Nat → Disk → Mapping)
    (ops : List (Bool × List T3)) (D : Disk) (H : AfterHistory kb g E S rnd M ops D) (add : Bool) (input : List T3) (L : InLimits g E (ops ++ [(add, input)]))
    (rnd' : Nat → Nat → Bool × Bool) (M' : Mapping) (hM' : M'.Of D) (j : Nat) (hj : j ≤ 2) (junk : Nat → List UInt8) (D' : Disk)
    (hD' : updateStopped kb E S rnd' M' D add input j junk = some D') (d : Order) (hd : kb.Reads d) :
    Shows kb E D' d (content g ops) := by
  obtain ⟨g', us, ts, F, e, n, l, m, -, -, -, hf, hh⟩ := stopped_facts H L hM' hD'
  by_cases hsame : D' = D
  · rw [hsame]
    exact shows_of F.loaded F.nodup F.ne H.envOk (F.disk.holdsAt d) F.disk.fresh (by omega) hd F.sem
  · have hne : ts ≠ [] := by
      intro h; subst h; exact hsame e
    have hj0 : j ≠ 0 := by
      intro h; subst h
      apply hsame
      rw [e]
      unfold Disk.crashed
      simp
    have hcb : crashBatch add ts j d = .del [] := by
      unfold crashBatch
      rw [if_neg (by simp; omega), if_neg]
      intro h
      have := treeWritten_two h
      omega
    have := hh hne hj0 d
    rw [hcb] at this
    refine shows_of F.loaded F.nodup F.ne H.envOk this (freshAll_append F.disk.fresh ⟨.nil, by simp⟩) (by rw [sum_upd, triples_del, List.length_nil]; omega) hd fun t => ?_
    rw [applyAll_del_nil]
    exact F.sem t

theorem crashBatch_finished {add : Bool} {ts : List T3} {j : Nat} {d : Order} (h : add = true ∧ j ≥ 7 ∨ add = false ∧ treeWritten j (Diff3.first d.idx) = true) :
    crashBatch add ts j d = request add ts := by
  unfold crashBatch request
  rcases h with ⟨rfl, h⟩ | ⟨rfl, h⟩
  · rw [if_pos (by simp; omega), if_pos rfl]
  · rw [if_neg (by simp), if_neg Bool.false_ne_true, if_pos h]

/-- The effect of a request that is stored. -/
theorem shows_after {kb g E S rnd M ops D} (H : AfterHistory kb g E S rnd M ops D) {add : Bool} {input : List T3} (L : InLimits g E (ops ++ [(add, input)]))
    {rnd' : Nat → Nat → Bool × Bool} {M' : Mapping} (hM' : M'.Of D) {j : Nat} {junk : Nat → List UInt8} {D' : Disk}
    (hD' : updateStopped kb E S rnd' M' D add input j junk = some D') {d : Order} (hd : kb.Reads d)
    (h : add = true ∧ j ≥ 7 ∨ add = false ∧ treeWritten j (Diff3.first d.idx) = true) : Shows kb E D' d (content g (ops ++ [(add, input)])) := by
  obtain ⟨g', us, ts, F, e, n, l, m, -, -, -, hf, hh⟩ := stopped_facts H L hM' hD'
  by_cases hne : ts = []
  · subst hne
    rw [show D' = D from e]
    refine shows_of F.loaded F.nodup F.ne H.envOk (F.disk.holdsAt d) F.disk.fresh (by omega) hd fun t => (F.sem t).trans (content_same ?_ t).symm
    intro t ht
    have : ¬ _ := fun h => absurd ((m t).2 h) (by simp)
    cases add
    · intro hc; exact this ⟨ht, hc⟩
    · exact Classical.byContradiction fun hc => this ⟨ht, hc⟩
  · have hj0 : j ≠ 0 := by
      rcases h with h | h
      · omega
      · have := treeWritten_two h.2; omega
    have hq := hh hne hj0 d
    rw [crashBatch_finished h] at hq
    have hnd : (ts.map T3.triple).Nodup := List.pairwise_map.2 (n.imp fun {a b} hab e => hab (triple_inj e))
    have hfr : (request add ts).Fresh (applyAll g' us) := by
      cases add with
      | true =>
        refine ⟨hnd, fun t ht => ?_⟩
        obtain ⟨x, hx, rfl⟩ := List.mem_map.1 ht
        rw [F.sem]
        exact ((m x).1 hx).2
      | false =>
        refine ⟨hnd, fun t ht => ?_⟩
        obtain ⟨x, hx, rfl⟩ := List.mem_map.1 ht
        rw [F.sem]
        exact ((m x).1 hx).2
    refine shows_of F.loaded F.nodup F.ne H.envOk hq (freshAll_append F.disk.fresh hfr) (by rw [sum_upd, request_triples, List.length_map]; omega) hd fun t => ?_
    rw [applyAll_append]
    unfold content
    rw [List.map_append, holdsAfter_append]
    cases add with
    | true =>
      show t ∈ applyAll g' us ++ ts.map T3.triple ↔ content g ops t ∨ t ∈ input.map T3.triple
      rw [List.mem_append, F.sem]
      constructor
      · rintro (h | h)
        · exact .inl h
        · obtain ⟨x, hx, rfl⟩ := List.mem_map.1 h
          exact .inr (List.mem_map.2 ⟨x, ((m x).1 hx).1, rfl⟩)
      · rintro (h | h)
        · exact .inl h
        · obtain ⟨x, hx, rfl⟩ := List.mem_map.1 h
          by_cases hc : content g ops (T3.triple x)
          · exact .inl hc
          · exact .inr (List.mem_map.2 ⟨x, (m x).2 ⟨hx, hc⟩, rfl⟩)
    | false =>
      show t ∈ (applyAll g' us).filter (fun t => decide (t ∉ ts.map T3.triple)) ↔ content g ops t ∧ t ∉ input.map T3.triple
      rw [List.mem_filter, decide_eq_true_eq, F.sem]
      refine and_congr_right fun hc => not_congr ?_
      constructor
      · intro h
        obtain ⟨x, hx, rfl⟩ := List.mem_map.1 h
        exact List.mem_map.2 ⟨x, ((m x).1 hx).1, rfl⟩
      · intro h
        obtain ⟨x, hx, rfl⟩ := List.mem_map.1 h
        exact List.mem_map.2 ⟨x, (m x).2 ⟨hx, hc⟩, rfl⟩

/-- C27, last part: an update that stops after its last step, and a deletion that stops after its three trees are written, has its full effect. -/
theorem C27_late_stop_partial (kb : KB) (g : List Triple) (E : UEnv) (S : Diff3.Sorts) (rnd : Nat → Nat → Nat → Bool × Bool) (M : Nat → Disk → Mapping)
    (ops : List (Bool × List T3)) (D : Disk) (H : AfterHistory kb g E S rnd M ops D) (add : Bool) (input : List T3) (L : InLimits g E (ops ++ [(add, input)]))
    (rnd' : Nat → Nat → Bool × Bool) (M' : Mapping) (hM' : M'.Of D) (j : Nat) (hj : j ≥ 7 ∨ (add = false ∧ j ≥ 5)) (junk : Nat → List UInt8) (D' : Disk)
    (hD' : updateStopped kb E S rnd' M' D add input j junk = some D') (d : Order) (hd : kb.Reads d) :
    Shows kb E D' d (content g (ops ++ [(add, input)])) := by
  refine shows_after H L hM' hD' hd ?_
  cases add with
  | true => exact .inl ⟨rfl, by rcases hj with h | h; exact h; simp at h⟩
  | false => exact .inr ⟨rfl, treeWritten_late d (by omega)⟩

/-- C27 for deletions, order by order: wherever a deletion stops, every order shows the content before it or the content after it. -/
theorem C27_deletion_each_order_partial (kb : KB) (g : List Triple) (E : UEnv) (S : Diff3.Sorts) (rnd : Nat → Nat → Nat → Bool × Bool) (M : Nat → Disk → Mapping)
    (ops : List (Bool × List T3)) (D : Disk) (H : AfterHistory kb g E S rnd M ops D) (input : List T3) (L : InLimits g E (ops ++ [(false, input)]))
    (rnd' : Nat → Nat → Bool × Bool) (M' : Mapping) (hM' : M'.Of D) (j : Nat) (junk : Nat → List UInt8) (D' : Disk)
    (hD' : updateStopped kb E S rnd' M' D false input j junk = some D') (d : Order) (hd : kb.Reads d) :
    Shows kb E D' d (content g ops) ∨ Shows kb E D' d (content g (ops ++ [(false, input)])) := by
  by_cases ht : treeWritten j (Diff3.first d.idx) = true
  · exact .inr (shows_after H L hM' hD' hd (.inr ⟨rfl, ht⟩))
  · left
    obtain ⟨g', us, ts, F, e, n, l, m, -, -, -, hf, hh⟩ := stopped_facts H L hM' hD'
    by_cases hsame : D' = D
    · rw [hsame]
      exact shows_of F.loaded F.nodup F.ne H.envOk (F.disk.holdsAt d) F.disk.fresh (by omega) hd F.sem
    · have hne : ts ≠ [] := by
        intro h; subst h; exact hsame e
      have hj0 : j ≠ 0 := by
        intro h; subst h
        apply hsame
        rw [e]
        unfold Disk.crashed
        simp
      have hcb : crashBatch false ts j d = .del [] := by
        unfold crashBatch
        rw [if_neg (by simp), if_neg ht]
      have := hh hne hj0 d
      rw [hcb] at this
      refine shows_of F.loaded F.nodup F.ne H.envOk this (freshAll_append F.disk.fresh ⟨.nil, by simp⟩) (by rw [sum_upd, triples_del, List.length_nil]; omega) hd fun t => ?_
      rw [applyAll_del_nil]
      exact F.sem t

/-- C27 for additions: wherever an addition stops before the last step, every query that has at least one answer without it (full scans
have) returns the content before it. -/
theorem C27_addition_nonempty_partial (kb : KB) (g : List Triple) (E : UEnv) (S : Diff3.Sorts) (rnd : Nat → Nat → Nat → Bool × Bool) (M : Nat → Disk → Mapping)
    (ops : List (Bool × List T3)) (D : Disk) (H : AfterHistory kb g E S rnd M ops D) (input : List T3) (L : InLimits g E (ops ++ [(true, input)]))
    (rnd' : Nat → Nat → Bool × Bool) (M' : Mapping) (hM' : M'.Of D) (j : Nat) (hj : j < 7) (junk : Nat → List UInt8) (D' : Disk)
    (hD' : updateStopped kb E S rnd' M' D true input j junk = some D') (d : Order) (hd : kb.Reads d) (M'' : Mapping) (hM'' : M''.Of D')
    (q : Pattern) (hq : q.Wf) (h1 : (q.at d.positions.2.1).isSome → (q.at d.positions.1).isSome) (h2 : (q.at d.positions.2.2).isSome → (q.at d.positions.2.1).isSome)
    (hans : ∃ t, content g ops t ∧ q.Matches t) :
    ∃ out, (kb.getIteratorU E (D'.opened M'') d.idx (argOfPos q.s) (argOfPos q.p) (argOfPos q.o)).Returns out ∧ out.Pairwise Row3.lt ∧
      ∀ r, r ∈ out ↔ ∃ t, content g ops t ∧ q.Matches t ∧ d.row t = r := by
  obtain ⟨g', us, ts, F, e, n, l, m, -, -, -, hf, hh⟩ := stopped_facts H L hM' hD'
  by_cases hsame : D' = D
  · rw [hsame] at hM'' ⊢
    exact shows_of F.loaded F.nodup F.ne H.envOk (F.disk.holdsAt d) F.disk.fresh (by omega) hd F.sem M'' hM'' q hq h1 h2
  · have hne : ts ≠ [] := by
      intro h; subst h; exact hsame e
    have hj0 : j ≠ 0 := by
      intro h; subst h
      apply hsame
      rw [e]
      unfold Disk.crashed
      simp
    obtain ⟨l', hl', hcb⟩ : ∃ l' : List Triple, (∀ t ∈ l', t ∈ ts.map T3.triple) ∧ crashBatch true ts j d = .del l' ∧ l'.length ≤ ts.length := by
      refine ⟨if treeWritten j (Diff3.first d.idx) then ts.map T3.triple else [], ?_, ?_, ?_⟩
      · intro t ht
        split at ht
        · exact ht
        · simp at ht
      · unfold crashBatch
        rw [if_neg (by simp; omega)]
      · split <;> simp
    have hH := hh hne hj0 d
    rw [hcb.1] at hH
    have hdisj : (applyAll g' us).filter (fun t => decide (t ∉ l')) = applyAll g' us := by
      rw [List.filter_eq_self]
      intro t ht
      rw [decide_eq_true_eq]
      intro ht'
      obtain ⟨x, hx, rfl⟩ := List.mem_map.1 (hl' t ht')
      exact ((m x).1 hx).2 ((F.sem _).1 ht)
    have hdel : ∀ (g0 : List Triple) (vs : List Update), DelOk (fun t => decide (q.Matches t)) g0 vs → (applyAll g0 vs).filter (fun t => decide (q.Matches t)) ≠ [] →
        DelOk (fun t => decide (q.Matches t)) g0 (vs ++ [.del l']) := by
      intro g0 vs
      induction vs generalizing g0 with
      | nil => intro _ h; exact ⟨fun _ _ => h, trivial⟩
      | cons v vs ih => intro h h'; exact ⟨h.1, ih _ h.2 h'⟩
    have hda := hdel g' us (FreshAll.delOk _ F.disk.fresh) (by
      obtain ⟨t, a, b⟩ := hans
      exact List.ne_nil_of_mem (List.mem_filter.2 ⟨(F.sem t).2 a, by simpa using b⟩))
    obtain ⟨out, a, b, c⟩ := (hH.query F.loaded F.nodup H.envOk hM'' (by rw [sum_upd, triples_del]; have := hcb.2; omega) q hq hd h1 h2 (.inl F.ne)).1 hda
    rw [applyAll_append, show (Update.del l').apply (applyAll g' us) = applyAll g' us from hdisj] at c
    refine ⟨out, a, strict_rows b (nodup_applyAll F.nodup F.disk.fresh) c, fun r => ?_⟩
    rw [c.mem_iff, List.mem_map]
    constructor
    · rintro ⟨t, x, y⟩
      obtain ⟨x, z⟩ := List.mem_filter.1 x
      exact ⟨t, (F.sem t).1 x, by simpa using z, y⟩
    · rintro ⟨t, x, y, z⟩
      exact ⟨t, List.mem_filter.2 ⟨(F.sem t).2 x, by simpa using y⟩, z⟩

/-! ## Claims found false -/

/-- A full scan tells whether a triple is shown. -/
theorem shows_inj {kb : KB} {E : UEnv} {D : Disk} {d : Order} {P Q : Triple → Prop} (h : Shows kb E D d P) (h' : Shows kb E D d Q) (t : Triple) : P t ↔ Q t := by
  obtain ⟨M, hM⟩ := exists_mapping D
  have hq : (⟨none, none, none⟩ : Pattern).Wf := by intro x v hv; cases x <;> simp [Pattern.at] at hv
  have hn : ∀ x, (⟨none, none, none⟩ : Pattern).at x = none := by intro x; cases x <;> rfl
  have hm : ∀ t, (⟨none, none, none⟩ : Pattern).Matches t := by intro t x v hv; rw [hn] at hv; simp at hv
  obtain ⟨out, ⟨o, e, y⟩, -, m⟩ := h M hM _ hq (by simp [hn]) (by simp [hn])
  obtain ⟨out', ⟨o', e', y'⟩, -, m'⟩ := h' M hM _ hq (by simp [hn]) (by simp [hn])
  rw [e] at e'
  obtain rfl : o = o' := by simpa using e'
  have := Yields.unique y y'
  subst this
  have key : ∀ {P : Triple → Prop}, (∀ r, r ∈ out ↔ ∃ t, P t ∧ (⟨none, none, none⟩ : Pattern).Matches t ∧ d.row t = r) → (P t ↔ d.row t ∈ out) := by
    intro P hp
    rw [hp]
    constructor
    · intro h; exact ⟨t, h, hm t, rfl⟩
    · rintro ⟨t', a, -, b⟩
      rw [← d.eq_of_row (congrArg (fun r : Row3 => r.1) b) (congrArg (fun r : Row3 => r.2) b)]
      exact a
  exact (key m).trans (key m').symm

/-- C27 is false: a deletion that stops after the tree of the subjects is written, and has an effect, shows neither the content before it nor the
content after it: the order SPO has lost the triples, the order POS still has them. -/
theorem C27_deletion_violated (kb : KB) (g : List Triple) (E : UEnv) (S : Diff3.Sorts) (rnd : Nat → Nat → Nat → Bool × Bool) (M : Nat → Disk → Mapping)
    (ops : List (Bool × List T3)) (D : Disk) (H : AfterHistory kb g E S rnd M ops D) (input : List T3) (L : InLimits g E (ops ++ [(false, input)]))
    (rnd' : Nat → Nat → Bool × Bool) (M' : Mapping) (hM' : M'.Of D) (junk : Nat → List UInt8) (D' : Disk)
    (hD' : updateStopped kb E S rnd' M' D false input 3 junk = some D') (hd : kb.Reads .pos) (t : T3) (ht : t ∈ input) (hc : content g ops t.triple) :
    ¬ (∀ d, kb.Reads d → Shows kb E D' d (content g ops)) ∧ ¬ (∀ d, kb.Reads d → Shows kb E D' d (content g (ops ++ [(false, input)]))) ∧
    Shows kb E D' .spo (content g (ops ++ [(false, input)])) ∧ Shows kb E D' .pos (content g ops) := by
  have h1 : Shows kb E D' .spo (content g (ops ++ [(false, input)])) := shows_after H L hM' hD' H.reads (.inr ⟨rfl, rfl⟩)
  have hne : ¬ content g (ops ++ [(false, input)]) t.triple := by
    unfold content
    rw [List.map_append, holdsAfter_append]
    show ¬ (_ ∧ _ ∉ _)
    rintro ⟨-, h⟩
    exact h (List.mem_map.2 ⟨t, ht, rfl⟩)
  have h2 : Shows kb E D' .pos (content g ops) := by
    obtain ⟨g', us, ts, F, e, n, l, m, -, -, -, hf, hh⟩ := stopped_facts H L hM' hD'
    have hts : ts ≠ [] := List.ne_nil_of_mem ((m t).2 ⟨ht, hc⟩)
    have := hh hts (by decide) .pos
    rw [show crashBatch false ts 3 .pos = .del [] from rfl] at this
    refine shows_of F.loaded F.nodup F.ne H.envOk this (freshAll_append F.disk.fresh ⟨.nil, by simp⟩) (by rw [sum_upd, triples_del, List.length_nil]; omega) hd fun t => ?_
    rw [applyAll_del_nil]
    exact F.sem t
  refine ⟨fun h => ?_, fun h => ?_, h1, h2⟩
  · exact hne ((shows_inj h1 (h .spo H.reads) _).2 hc)
  · exact hne ((shows_inj h2 (h .pos hd) _).1 hc)

theorem delOk_append {P : Triple → Bool} {l' : List Triple} : ∀ (g0 : List Triple) (vs : List Update), DelOk P g0 (vs ++ [.del l']) → l'.filter P ≠ [] →
    (applyAll g0 vs).filter P ≠ [] := by
  intro g0 vs
  induction vs generalizing g0 with
  | nil => intro h h'; exact h.1 rfl h'
  | cons v vs ih => intro h h'; exact ih _ h.2 h'

/-- C27 is false: if an addition stops after its trees are written and before the flag is, it is opened as a deletion, and asking for
a subject that only the new triples have is undefined (an element of an empty vector is read). -/
theorem C27_addition_violated (kb : KB) (g : List Triple) (E : UEnv) (S : Diff3.Sorts) (rnd : Nat → Nat → Nat → Bool × Bool) (M : Nat → Disk → Mapping)
    (ops : List (Bool × List T3)) (D : Disk) (H : AfterHistory kb g E S rnd M ops D) (input : List T3) (L : InLimits g E (ops ++ [(true, input)]))
    (rnd' : Nat → Nat → Bool × Bool) (M' : Mapping) (hM' : M'.Of D) (j : Nat) (hj : 3 ≤ j ∧ j < 7) (junk : Nat → List UInt8) (D' : Disk)
    (hD' : updateStopped kb E S rnd' M' D true input j junk = some D') (M'' : Mapping) (hM'' : M''.Of D')
    (t : T3) (ht : t ∈ input) (hc : ∀ t', content g ops t' → t'.s ≠ t.1) :
    kb.getIteratorU E (D'.opened M'') 0 t.1 (-1) (-1) = .undef := by
  obtain ⟨g', us, ts, F, e, n, l, m, -, -, -, hf, hh⟩ := stopped_facts H L hM' hD'
  have hts : t ∈ ts := (m t).2 ⟨ht, fun h => hc _ h rfl⟩
  have hH := hh (List.ne_nil_of_mem hts) (by omega) .spo
  have hcb : crashBatch true ts j .spo = .del (ts.map T3.triple) := by
    unfold crashBatch
    rw [if_neg (by simp; omega), if_pos]
    show treeWritten j 0 = true
    simp [treeWritten]; omega
  rw [hcb] at hH
  have hq : (⟨some (t.1 : Int), none, none⟩ : Pattern).Wf := by
    intro x v hv; cases x <;> simp [Pattern.at] at hv; omega
  have hmt : ∀ t' : Triple, (⟨some (t.1 : Int), none, none⟩ : Pattern).Matches t' ↔ t'.s = t.1 := by
    intro t'
    rw [matches_iff .spo]
    simp [Pattern.at, Order.positions, Order.key, Triple.at]
  refine (hH.query F.loaded F.nodup H.envOk hM'' (by rw [sum_upd, triples_del, List.length_map]; omega)
    ⟨some (t.1 : Int), none, none⟩ hq H.reads (by simp [Pattern.at, Order.positions]) (by simp [Pattern.at, Order.positions]) (.inl F.ne)).2 ?_
  intro hdel
  refine absurd (delOk_append _ _ hdel (List.ne_nil_of_mem (List.mem_filter.2 ⟨List.mem_map.2 ⟨t, hts, rfl⟩, ?_⟩))) ?_
  · rw [decide_eq_true_eq, hmt]; rfl
  · rw [Decidable.not_not, List.filter_eq_nil_iff]
    intro t' ht'
    rw [decide_eq_true_eq, hmt]
    exact hc t' ((F.sem t').1 ht')

/-! ## Non-vacuity -/

/-- The example graph after a deletion that had an effect. -/
theorem ex_history : ∃ m Mm M D, (∀ i, i < 6 → Mapped m (Mm i) (exConfig.ins exGraph i).store.files) ∧
    AfterHistory (exConfig.open' exGraph m Mm) (exGraph.map T3.triple) exEnv msorts (fun _ _ _ => (true, false)) M [(false, [(7, 1, 300), (9, 9, 9)])] D := by
  obtain ⟨m, Mm, hMm⟩ := exists_mapped fun i => (exConfig.ins exGraph i).store.files
  have hM := fun (_ : Nat) (D : Disk) => Classical.choose_spec (exists_mapping D)
  have hall : (exConfig.open' exGraph m Mm).Reads .spo := .inl rfl
  obtain ⟨D, hD, -⟩ := C24_history_partial (exConfig.open' exGraph m Mm) _ (exOk.loaded hMm) (by decide) hall exEnv exEnv_ok msorts msorts_ok
    (fun _ _ _ => (true, false)) _ hM [(false, [(7, 1, 300), (9, 9, 9)])] ⟨by decide, by decide⟩ (by decide) (by decide)
  exact ⟨m, Mm, _, D, hMm, exOk.loaded hMm, by decide, hall, exEnv_ok, msorts_ok, hM, hD⟩

/-- The run of an update can be stopped at every point. -/
theorem stopped_defined {kb g E S rnd M ops D} (H : AfterHistory kb g E S rnd M ops D) {add : Bool} {input : List T3} (L : InLimits g E (ops ++ [(add, input)]))
    (rnd' : Nat → Nat → Bool × Bool) {M' : Mapping} (hM' : M'.Of D) (j : Nat) (junk : Nat → List UInt8) :
    ∃ D', updateStopped kb E S rnd' M' D add input j junk = some D' := by
  have hv : volume (ops ++ [(add, input)]) = volume ops + input.length := by rw [volume_append]; rfl
  have l1 := L.volume
  have l2 := L.fuel
  rw [hv] at l1 l2
  obtain ⟨g', us, F⟩ := H.facts ⟨L.fit.left, by omega, by omega⟩
  have f1 := F.vol
  have f2 := F.len
  obtain ⟨ts, a, -⟩ := pending_spec F.loaded H.envOk H.sortsOk F.disk hM' (by omega) F.ne H.reads add input
  refine ⟨if ts.isEmpty then D else D.crashed S rnd' add ts j junk, ?_⟩
  unfold updateStopped
  rw [a]; rfl

/-- Stopping the deletion of (2,1,70000) at each point: the hypotheses of the theorems for deletions hold, at point 3 the orders disagree. -/
example : ∃ kb g E S, ∃ rnd M ops D input, AfterHistory kb g E S rnd M ops D ∧ InLimits g E (ops ++ [(false, input)]) ∧
    (∃ t ∈ input, content g ops (T3.triple t)) ∧ ∃ D' : Disk,
    Shows kb E D' .spo (content g (ops ++ [(false, input)])) ∧ Shows kb E D' .pos (content g ops) := by
  obtain ⟨m, Mm, M, D, hMm, H⟩ := ex_history
  have L : InLimits (exGraph.map T3.triple) exEnv ([(false, [(7, 1, 300), (9, 9, 9)])] ++ [(false, [(2, 1, 70000)])]) :=
    ⟨⟨by decide, by decide⟩, by decide, by decide⟩
  obtain ⟨M', hM'⟩ := exists_mapping D
  obtain ⟨D', hD'⟩ := stopped_defined H L (fun _ _ => (true, false)) hM' 3 (fun _ => [1, 2, 3])
  have hc : content (exGraph.map T3.triple) [(false, [(7, 1, 300), (9, 9, 9)])] (T3.triple (2, 1, 70000)) := by
    show _ ∈ _ ∧ _ ∉ _
    decide
  exact ⟨_, _, _, _, _, _, _, D, [(2, 1, 70000)], H, L, ⟨_, List.mem_singleton.2 rfl, hc⟩, D',
    (C27_deletion_violated _ _ _ _ _ _ _ _ H _ L _ M' hM' _ D' hD' (.inl rfl) _ (List.mem_singleton.2 rfl) hc).2.2⟩

/-- Stopping the addition of (50,1,2) before the flag: a query for the subject 7 returns what it did, a query for the subject 50 is undefined. -/
example : ∃ m Mm D M'', (∀ i, i < 6 → Mapped m (Mm i) (exConfig.ins exGraph i).store.files) ∧
    (exConfig.open' exGraph m Mm).getIteratorU exEnv (Disk.opened D M'') 0 50 (-1) (-1) = .undef ∧
    ∃ out, ((exConfig.open' exGraph m Mm).getIteratorU exEnv (Disk.opened D M'') 0 7 (-1) (-1)).Returns out ∧ ∀ r, r ∈ out ↔ r = (7, 1, 2) := by
  obtain ⟨m, Mm, M, D, hMm, H⟩ := ex_history
  have L : InLimits (exGraph.map T3.triple) exEnv ([(false, [(7, 1, 300), (9, 9, 9)])] ++ [(true, [(50, 1, 2)])]) :=
    ⟨⟨by decide, by decide⟩, by decide, by decide⟩
  obtain ⟨M', hM'⟩ := exists_mapping D
  obtain ⟨D', hD'⟩ := stopped_defined H L (fun _ _ => (true, false)) hM' 6 (fun _ => [1, 2, 3])
  obtain ⟨M'', hM''⟩ := exists_mapping D'
  have hcon : ∀ t, content (exGraph.map T3.triple) [(false, [(7, 1, 300), (9, 9, 9)])] t ↔ t = ⟨7, 1, 2⟩ ∨ t = ⟨2, 1, 70000⟩ ∨ t = ⟨2, 4, 7⟩ := by
    intro t
    show (t ∈ exGraph.map T3.triple ∧ t ∉ _) ↔ _
    constructor
    · rintro ⟨h, h'⟩
      simp [exGraph, T3.triple] at h
      rcases h with rfl | rfl | rfl | rfl | rfl
      all_goals first | exact absurd (by decide) h' | simp
    · rintro (rfl | rfl | rfl) <;> decide
  refine ⟨m, Mm, D', M'', hMm, ?_, ?_⟩
  · refine C27_addition_violated _ _ _ _ _ _ _ _ H _ L _ M' hM' 6 (by decide) _ D' hD' M'' hM'' (50, 1, 2) (List.mem_singleton.2 rfl) ?_
    intro t' ht'
    rcases (hcon t').1 ht' with rfl | rfl | rfl <;> decide
  · have hmt : ∀ t' : Triple, (⟨some 7, none, none⟩ : Pattern).Matches t' ↔ t'.s = 7 := by
      intro t'
      rw [matches_iff .spo]
      simp [Pattern.at, Order.positions, Order.key, Triple.at]
    obtain ⟨out, a, -, b⟩ := C27_addition_nonempty_partial _ _ _ _ _ _ _ _ H _ L _ M' hM' 6 (by decide) _ D' hD' .spo H.reads M'' hM'' ⟨some 7, none, none⟩
      (by intro x v hv; cases x <;> simp [Pattern.at] at hv; omega) (by simp [Pattern.at, Order.positions]) (by simp [Pattern.at, Order.positions])
      ⟨⟨7, 1, 2⟩, (hcon _).2 (.inl rfl), (hmt _).2 rfl⟩
    refine ⟨out, a, fun r => (b r).trans ?_⟩
    constructor
    · rintro ⟨t, x, y, rfl⟩
      rw [hmt] at y
      rcases (hcon t).1 x with rfl | rfl | rfl
      · rfl
      all_goals exact absurd y (by decide)
    · rintro rfl
      exact ⟨⟨7, 1, 2⟩, (hcon _).2 (.inl rfl), (hmt _).2 rfl, rfl⟩

/-- Stopping the addition of (50,1,2) at points 1 and 7. -/
example : ∃ m Mm D1 D7, (∀ i, i < 6 → Mapped m (Mm i) (exConfig.ins exGraph i).store.files) ∧
    Shows (exConfig.open' exGraph m Mm) exEnv D1 .pos (content (exGraph.map T3.triple) [(false, [(7, 1, 300), (9, 9, 9)])]) ∧
    Shows (exConfig.open' exGraph m Mm) exEnv D7 .pos (content (exGraph.map T3.triple) ([(false, [(7, 1, 300), (9, 9, 9)])] ++ [(true, [(50, 1, 2)])])) := by
  obtain ⟨m, Mm, M, D, hMm, H⟩ := ex_history
  have L : InLimits (exGraph.map T3.triple) exEnv ([(false, [(7, 1, 300), (9, 9, 9)])] ++ [(true, [(50, 1, 2)])]) :=
    ⟨⟨by decide, by decide⟩, by decide, by decide⟩
  obtain ⟨M', hM'⟩ := exists_mapping D
  obtain ⟨D1, hD1⟩ := stopped_defined H L (fun _ _ => (true, false)) hM' 1 (fun _ => [1, 2, 3])
  obtain ⟨D7, hD7⟩ := stopped_defined H L (fun _ _ => (true, false)) hM' 7 (fun _ => [1, 2, 3])
  exact ⟨m, Mm, D1, D7, hMm, C27_early_stop_partial _ _ _ _ _ _ _ _ H _ _ L _ M' hM' 1 (by decide) _ D1 hD1 .pos (.inl rfl),
    C27_late_stop_partial _ _ _ _ _ _ _ _ H _ _ L _ M' hM' 7 (by decide) _ D7 hD7 .pos (.inl rfl)⟩

end Trident
