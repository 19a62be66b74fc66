import Verif.Join.BgpProofs
import Verif.Join.SortEx
import Verif.Props.Update
/-!
# C59 to C61: scans and joins of patterns with variables

`NPat` is a pattern with named variables, `NPat.Sat` says which triples answer it.  `Answers get G` says that the querier answers queries from the
triples `G`; the theorems `answers_stored` and `answers_updated` give it for a stored graph and for a graph with updates, so what is proved here holds
for both.
-/
namespace Trident.Join
open Trident Strat Load Upd

/-- The querier of a stored graph answers from it. -/
theorem answers_stored {kb : KB} {g : List Triple} (h : Loaded kb g) {E : Env} (hE : SortsPairs E.sortP) (hf : g.length < E.fuel) (hg : g ≠ []) (hr : ∀ d, kb.Reads d) :
    Answers (kb.getIterator E) (· ∈ g) := by
  intro q d hq h1 h2
  obtain ⟨out, ⟨o, a, b⟩, c, e⟩ := C21_stored_partial kb g h E hE hf q hq d (hr d) h1 h2 (.inl hg)
  exact ⟨out, o, a, b, c, e⟩

/-- After any history of updates the querier answers from the triples that hold. -/
theorem answers_updated (kb : KB) (g : List Triple) (h : Loaded kb g) (hg : g ≠ []) (hr : ∀ d, kb.Reads d) (E : UEnv) (hE : E.Ok) (S : Diff3.Sorts) (hS : S.Ok)
    (rnd : Nat → Nat → Nat → Bool × Bool) (M : Nat → Disk → Mapping) (hM : ∀ n D, (M n D).Of D) (ops : List (Bool × List T3)) (hfit : OpsFit ops)
    (hvol : volume ops < 2 ^ 27) (hf : g.length + volume ops < E.fuel) :
    ∃ D, updates kb E S rnd M 0 Disk.empty ops = some D ∧ ∀ M' : Mapping, M'.Of D →
      Answers (kb.getIteratorU E (D.opened M')) (holdsAfter (· ∈ g) (ops.map fun u => request u.1 u.2)) := by
  obtain ⟨D, a, b⟩ := C24_history_partial kb g h hg (hr .spo) E hE S hS rnd M hM ops hfit hvol hf
  refine ⟨D, a, fun M' hM' q d hq h1 h2 => ?_⟩
  obtain ⟨out, ⟨o, c, e⟩, f, k⟩ := b M' hM' q hq d (hr d) h1 h2
  exact ⟨out, o, c, e, f, k⟩

/-! ## C59: the scan of a pattern -/

/-- **C59**, for patterns with different names: the scan returns the values of the variables, in the order of the columns it announces, for each triple
that answers the pattern, once. -/
theorem C59_scan_partial {get : Nat → Int → Int → Int → QRes} {G : Triple → Prop} (ha : Answers get G) {q : NPat} (hw : q.Wf) (hn : q.columns.Nodup) :
    ∃ ts : List Triple, ts.Nodup ∧ (∀ x, x ∈ ts ↔ G x ∧ q.Sat x) ∧ (q.scan get).Returns (ts.map q.row) :=
  scan_spec' ha hw hn

/-- **C59** for tuples: the iterator returns, once, each triple that fits the tuple (the constants, and equal values for equal variables), if all columns
are read, or if every position with a repeated variable comes after variables only. -/
theorem C59_tuple_partial {get : Nat → Int → Int → Int → QRes} {G : Triple → Prop} (ha : Answers get G) {t : Tup} (hw : t.Wf) {b : Bool} (hal : t.Aligned b) :
    ∃ ts : List Triple, ts.Nodup ∧ (∀ x, x ∈ ts ↔ G x ∧ t.Fits x) ∧ (init get t none b).Returns (ts.map fun x => (t.cols b).map (at3 x)) := by
  obtain ⟨ts, h1, h2, -, h4⟩ := init_spec ha hw hal (sort := none) (by simp)
  exact ⟨ts, h1, h2, h4⟩

/-- With all columns read, the condition of `C59_tuple_partial` always holds. -/
theorem aligned_all (t : Tup) : t.Aligned false := by
  intro e he
  have := (List.mem_filter.1 he).1
  simp only [List.mem_cons, List.not_mem_nil, or_false] at this
  rcases this with rfl | rfl | rfl <;> exact ⟨rfl, rfl⟩

/-- **C59** fails for a pattern with a repeated variable, whatever the querier: of `?x 5 ?x` the scan returns the triple `(1, 5, 2)`, because the
variables get different ids. -/
theorem C59_repeated_violated : ∃ (q : NPat) (x : Triple), q.Wf ∧ ¬ q.Sat x ∧ ∀ get, Answers get (· = x) → (q.scan get).Returns [[1, 2]] := by
  refine ⟨⟨-1, 5, -1, [(0, 0), (0, 2)]⟩, ⟨1, 5, 2⟩, by unfold NPat.Wf; decide, ?_, ?_⟩
  · intro h
    have := h.2 (0, 0) (by simp) (0, 2) (by simp) rfl
    simp [at3] at this
  · intro get ha
    obtain ⟨ts, h1, h2, h3⟩ := C59_scan_partial ha (q := ⟨-1, 5, -1, [(0, 0), (1, 2)]⟩) (by unfold NPat.Wf; decide) (by decide)
    have : ts = [⟨1, 5, 2⟩] := by
      have hm : ∀ x, x ∈ ts ↔ x = ⟨1, 5, 2⟩ := by
        intro x
        rw [h2]
        constructor
        · exact fun h => h.1
        · rintro rfl
          refine ⟨rfl, ?_, ?_⟩
          · intro j hj
            match j, hj with
            | 0, _ => decide
            | 1, _ => decide
            | 2, _ => decide
          · decide
      match ts, h1, hm with
      | [], _, hm => exact absurd ((hm ⟨1, 5, 2⟩).2 rfl) (by simp)
      | [a], _, hm => rw [(hm a).1 (by simp)]
      | a :: b :: l, h1, hm =>
        have e1 := (hm a).1 (by simp)
        have e2 := (hm b).1 (by simp)
        rw [e1, e2] at h1
        simp at h1
    rw [this] at h3
    exact h3

/-- **C59** also fails in the other direction: of `?x ?x ?y` the scan does not return the triple `(1, 1, 2)`, because the second and the third variable get
the same id. -/
theorem C59_repeated_lost_violated : ∃ (q : NPat) (x : Triple), q.Wf ∧ q.Sat x ∧ ∀ get, Answers get (· = x) → (q.scan get).Returns [] := by
  refine ⟨⟨-1, -1, -1, [(0, 0), (0, 1), (1, 2)]⟩, ⟨1, 1, 2⟩, by unfold NPat.Wf; decide, ?_, ?_⟩
  · refine ⟨?_, by decide⟩
    intro j hj
    match j, hj with
    | 0, _ => decide
    | 1, _ => decide
    | 2, _ => decide
  · intro get ha
    obtain ⟨ts, h1, h2, h3⟩ := C59_tuple_partial ha (t := (⟨-1, -1, -1, [(0, 0), (0, 1), (1, 2)]⟩ : NPat).tuple) (b := true)
      (by intro j hj; match j, hj with | 0, _ => decide | 1, _ => decide | 2, _ => decide) (by unfold Tup.Aligned; decide)
    have : ts = [] := by
      match ts, h2 with
      | [], _ => rfl
      | a :: l, h2 =>
        obtain ⟨e1, e2⟩ := (h2 a).1 (by simp)
        rw [e1] at e2
        have := e2.2 1 2 (by omega) (by omega) (by decide) (by decide)
        simp [at3] at this
    rw [this] at h3
    exact h3

/-- The iterator over a tuple with a repeated variable after a constant, read for its variables only, compares a position that was never set. -/
theorem C59_unset_violated : ∃ t : Tup, t.Wf ∧ ∀ get G, Answers get G → init get t none true = .undef := by
  refine ⟨⟨⟨1, 0⟩, ⟨0, 5⟩, ⟨1, 0⟩⟩, ?_, ?_⟩
  · intro j hj
    match j, hj with
    | 0, _ => decide
    | 1, _ => decide
    | 2, _ => decide
  · intro get G ha
    obtain ⟨out, o, h1, -⟩ := ha ⟨none, some 5, none⟩ .pso (by intro x v hv; cases x <;> simp [Pattern.at] at hv; omega) (by decide) (by decide)
    have h1 : get 5 (-1) 5 (-1) = .itr o := h1
    have : init get ⟨⟨1, 0⟩, ⟨0, 5⟩, ⟨1, 0⟩⟩ none true = (match get 5 (-1) 5 (-1) with
      | .null => .null
      | .undef => .undef
      | .itr o => if ([(0, 2)] : List (Nat × Nat)).all fun e => decide (e.1 < 2) && decide (e.2 < 2) then .itr o [1, 2] [(0, 2)] else .undef) := rfl
    rw [this, h1]
    rfl

/-! ## C60: sorted scans -/

/-- **C60**, for at most two columns, or all three in the order of SPO, POS or OPS: the triples come sorted by the columns that were asked for. -/
theorem C60_sorted_partial {get : Nat → Int → Int → Int → QRes} {G : Triple → Prop} (ha : Answers get G) {t : Tup} (hw : t.Wf) {b : Bool} (hal : t.Aligned b)
    {fs : List Nat} (hs : SortOk t fs) :
    ∃ ts : List Triple, ts.Nodup ∧ (∀ x, x ∈ ts ↔ G x ∧ t.Fits x) ∧ (ts.Pairwise fun x y => lexLe (fs.map (at3 x)) (fs.map (at3 y))) ∧
      (init get t (some fs) b).Returns (ts.map fun x => (t.cols b).map (at3 x)) := by
  obtain ⟨ts, h1, h2, h3, h4⟩ := init_spec ha hw hal (sort := some fs) (by rintro _ ⟨⟩; exact hs)
  exact ⟨ts, h1, h2, h3 fs rfl, h4⟩

/-- **C60** fails for the other three orders of all columns: asked for subject, object, predicate, the iterator sorts by subject, predicate, object. -/
theorem C60_three_columns_violated : ∃ (t : Tup) (fs : List Nat) (x y : Triple), t.Wf ∧ fs.Nodup ∧ (∀ f ∈ fs, f < 3 ∧ (t.get f).isVar = true) ∧
    ¬ lexLe (fs.map (at3 x)) (fs.map (at3 y)) ∧ ∀ get, Answers get (fun z => z = x ∨ z = y) → (init get t (some fs) false).Returns ([x, y].map fun z => [0, 1, 2].map (at3 z)) := by
  refine ⟨⟨⟨1, 0⟩, ⟨2, 0⟩, ⟨3, 0⟩⟩, [0, 2, 1], ⟨1, 1, 2⟩, ⟨1, 2, 1⟩, ?_, by decide, by decide, by simp [lexLe, at3], ?_⟩
  · intro j hj
    match j, hj with
    | 0, _ => decide
    | 1, _ => decide
    | 2, _ => decide
  · intro get ha
    obtain ⟨ts, h1, h2, h3, h4⟩ := C60_sorted_partial ha (t := ⟨⟨1, 0⟩, ⟨2, 0⟩, ⟨3, 0⟩⟩) (b := false) (fs := [0, 1, 2])
      (by intro j hj; match j, hj with | 0, _ => decide | 1, _ => decide | 2, _ => decide) (aligned_all _) ⟨by decide, by decide, .inr (by decide)⟩
    have hm : ∀ z, z ∈ ts ↔ z = ⟨1, 1, 2⟩ ∨ z = ⟨1, 2, 1⟩ := by
      intro z
      rw [h2]
      refine and_iff_left ?_
      refine ⟨?_, ?_⟩
      · intro j hj h0
        match j, hj, h0 with
        | 0, _, h0 => exact absurd h0 (by decide)
        | 1, _, h0 => exact absurd h0 (by decide)
        | 2, _, h0 => exact absurd h0 (by decide)
      · intro i j hi hj h0 he
        match i, j, hi, hj, he with
        | 0, 0, _, _, _ => rfl
        | 1, 1, _, _, _ => rfl
        | 2, 2, _, _, _ => rfl
        | 0, 1, _, _, he => exact absurd he (by decide)
        | 0, 2, _, _, he => exact absurd he (by decide)
        | 1, 0, _, _, he => exact absurd he (by decide)
        | 1, 2, _, _, he => exact absurd he (by decide)
        | 2, 0, _, _, he => exact absurd he (by decide)
        | 2, 1, _, _, he => exact absurd he (by decide)
    have hts : ts = [⟨1, 1, 2⟩, ⟨1, 2, 1⟩] := by
      match ts, h1, h3, hm with
      | [], _, _, hm => exact absurd ((hm ⟨1, 1, 2⟩).2 (.inl rfl)) (by simp)
      | [a], _, _, hm =>
        have e1 := (hm ⟨1, 1, 2⟩).2 (.inl rfl)
        have e2 := (hm ⟨1, 2, 1⟩).2 (.inr rfl)
        simp only [List.mem_singleton] at e1 e2
        rw [← e1] at e2
        exact absurd e2 (by decide)
      | a :: b :: c :: l, h1, _, hm =>
        have ea := (hm a).1 (by simp)
        have eb := (hm b).1 (by simp)
        have ec := (hm c).1 (by simp)
        simp only [List.nodup_cons, List.mem_cons, not_or] at h1
        rcases ea with rfl | rfl <;> rcases eb with rfl | rfl <;> rcases ec with rfl | rfl <;> simp at h1
      | [a, b], h1, h3, hm =>
        have ea := (hm a).1 (by simp)
        have eb := (hm b).1 (by simp)
        rcases ea with rfl | rfl <;> rcases eb with rfl | rfl
        · simp at h1
        · rfl
        · simp [lexLe, at3] at h3
        · simp at h1
    rw [hts] at h4
    exact h4

/-! ## C61: several patterns -/

/-- **C61**, under the conditions of `C46_join_partial`: scanning each pattern and joining the scans returns exactly the answers to all patterns: for
each way to choose one triple for each pattern so that shared variables have one value, a row with the values of the projected variables, as often as
there are such choices. -/
theorem C61_patterns_partial {get : Nat → Int → Int → Int → QRes} {G : Triple → Prop} (ha : Answers get G) (hG : ∀ x, G x → ∀ j, 0 ≤ at3 x j ∧ at3 x j < 2 ^ 64 - 1)
    {srt : (Nat → List Nat) → List Nat → List Nat} (hs : SortsKeys srt) {proj : List Nat} {q : NPat} {qs : List NPat} (hne : qs ≠ [])
    (hw : ∀ p ∈ q :: qs, p.Wf ∧ p.columns.Nodup) (hj : Joinable q.columns (qs.map bare)) (hp : ProjFits proj q.columns (qs.map bare)) :
    ∃ (tss : List (List Triple)) (sols : List (List Triple)) (out : List (List Nat)),
      Each (fun p ts => (p.scan get).Returns (ts.map p.row)) (q :: qs) tss ∧
      hashJoin srt (List.zipWith childOf (q :: qs) tss) proj = some out ∧ sols.Nodup ∧
      (∀ xs, xs ∈ sols ↔ Each (fun p x => G x ∧ p.Sat x) (q :: qs) xs ∧ consistent (bindOf (q :: qs) xs) = true) ∧
      out.Perm (sols.map fun xs => (if proj = [] then varsOf ((q :: qs).map bare) else proj).map (value (bindOf (q :: qs) xs))) :=
  bgp_spec ha hG hs hne hw hj hp

/-! ## The hypotheses are met -/

/-- The graph of `Props/Query.lean`, loaded. -/
theorem exAnswers : ∃ get, Answers get (· ∈ exGraph.map T3.triple) := by
  obtain ⟨m, M, hM⟩ := exists_mapped fun i => (exConfig.ins exGraph i).store.files
  refine ⟨_, answers_stored (exOk.loaded (fun i hi => hM i hi)) (E := ⟨isort, msort, 100⟩) isort_sorts (show 5 < 100 by omega) (by decide) ?_⟩
  intro d
  unfold KB.Reads
  show permsOf 6 _ = true ∨ _ ∧ permsOf 6 _ = true
  cases d <;> decide

/-- The pattern `?0 1 ?1`. -/
def exQ1 : NPat := ⟨-1, 1, -1, [(0, 0), (1, 2)]⟩
/-- The pattern `?0 ?2 7`. -/
def exQ2 : NPat := ⟨-1, -1, 7, [(0, 0), (2, 1)]⟩

example : ∃ get, ∃ ts : List Triple, ts.Nodup ∧ (∀ x, x ∈ ts ↔ x ∈ exGraph.map T3.triple ∧ exQ1.Sat x) ∧ (exQ1.scan get).Returns (ts.map exQ1.row) := by
  obtain ⟨get, h⟩ := exAnswers
  exact ⟨get, C59_scan_partial h (by unfold NPat.Wf; decide) (by decide)⟩

/-- `?x 4 ?x` on the tuple interface, all columns. -/
example : ∃ get, ∃ ts : List Triple, ts.Nodup ∧ (∀ x, x ∈ ts ↔ x ∈ exGraph.map T3.triple ∧ (⟨⟨1, 0⟩, ⟨0, 4⟩, ⟨1, 0⟩⟩ : Tup).Fits x) ∧
    (init get ⟨⟨1, 0⟩, ⟨0, 4⟩, ⟨1, 0⟩⟩ none false).Returns (ts.map fun x => [0, 1, 2].map (at3 x)) := by
  obtain ⟨get, h⟩ := exAnswers
  exact ⟨get, C59_tuple_partial h (by intro j hj; match j, hj with | 0, _ => decide | 1, _ => decide | 2, _ => decide) (aligned_all _)⟩

/-- Predicate 1, sorted by object, then subject. -/
example : ∃ get, ∃ ts : List Triple, ts.Nodup ∧ (∀ x, x ∈ ts ↔ x ∈ exGraph.map T3.triple ∧ (⟨⟨1, 0⟩, ⟨0, 1⟩, ⟨2, 0⟩⟩ : Tup).Fits x) ∧
    (ts.Pairwise fun x y => lexLe ([2, 0].map (at3 x)) ([2, 0].map (at3 y))) ∧
    (init get ⟨⟨1, 0⟩, ⟨0, 1⟩, ⟨2, 0⟩⟩ (some [2, 0]) false).Returns (ts.map fun x => [0, 1, 2].map (at3 x)) := by
  obtain ⟨get, h⟩ := exAnswers
  exact ⟨get, C60_sorted_partial h (by intro j hj; match j, hj with | 0, _ => decide | 1, _ => decide | 2, _ => decide) (aligned_all _)
    ⟨by decide, by decide, .inl (by decide)⟩⟩

/-- The patterns `?0 1 ?1` and `?0 ?2 7`: they have answers, and the hypotheses of `C61_patterns_partial` hold. -/
example : ∃ get, ∃ (tss : List (List Triple)) (sols : List (List Triple)) (out : List (List Nat)),
      Each (fun p ts => (p.scan get).Returns (ts.map p.row)) [exQ1, exQ2] tss ∧
      hashJoin insSort (List.zipWith childOf [exQ1, exQ2] tss) [] = some out ∧ [2, 70000, 4] ∈ out := by
  obtain ⟨get, h⟩ := exAnswers
  obtain ⟨tss, sols, out, a, b, -, d, e⟩ := C61_patterns_partial h (by
      intro x hx j
      have : ∀ x ∈ exGraph.map T3.triple, ∀ j, j < 3 → 0 ≤ at3 x j ∧ at3 x j < 2 ^ 64 - 1 := by decide
      match j with
      | 0 => exact this x hx 0 (by omega)
      | 1 => exact this x hx 1 (by omega)
      | n + 2 => exact this x hx 2 (by omega))
    insSort_sorts (proj := []) (q := exQ1) (qs := [exQ2]) (by simp)
    (by
      intro p hp
      simp only [List.mem_cons, List.not_mem_nil, or_false] at hp
      rcases hp with rfl | rfl <;> exact ⟨by unfold NPat.Wf; decide, by decide⟩)
    ⟨.inl (by decide), trivial⟩ (.inl rfl)
  refine ⟨get, tss, sols, out, a, b, ?_⟩
  rw [e.mem_iff, List.mem_map]
  refine ⟨[⟨2, 1, 70000⟩, ⟨2, 4, 7⟩], (d _).2 ⟨.cons ⟨by decide, ?_, by decide⟩ (.cons ⟨by decide, ?_, by decide⟩ .nil), by decide⟩, by decide⟩
  all_goals
    intro j hj
    match j, hj with
    | 0, _ => decide
    | 1, _ => decide
    | 2, _ => decide

end Trident.Join
