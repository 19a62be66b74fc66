import Verif.Iter.Aggr
/-!
# C119: aggregated tables return the pairs they stand for
-/
namespace Trident.Aggr

variable {σ τ : Type}

/-- The pairs an aggregated table stands for: each row of the main table has a first value
and the coordinates of a table, whose second column has the second values. -/
def pairs (g : Int → List Pair) (l : List Pair) : List Pair :=
  l.flatMap fun r => (g r.2).map fun y => (r.1, y.2)

theorem pairs_cons (g : Int → List Pair) (r : Pair) (l : List Pair) :
    pairs g (r :: l) = (g r.2).map (fun y => (r.1, y.2)) ++ pairs g l := by
  simp [pairs]

/-- After a row is found the client reads it and goes on. -/
theorem found {P : Parts σ τ} {st st' : St σ τ} {rest : List Pair}
    (h : hasNext P st = (true, st')) (hr : Yields (itr P) (next P st') rest) :
    Yields (itr P) st (((next P st').v1, (next P st').v2) :: rest) := by
  have h1 : (itr P).hasNext st = (true, st') := h
  rw [yields_cons, h1]
  exact ⟨rfl, rfl, hr⟩

theorem ended {P : Parts σ τ} {st : St σ τ} (h : (hasNext P st).1 = false) :
    Yields (itr P) st [] := .done h

/-- The rows from a state after `next`. -/
theorem run {P : Parts σ τ} (hns : P.noSec = false) (ha : P.anyFirst = true)
    {c2 : Option Int} {g : Int → List Pair} (l : List Pair) :
    ∀ (ps : List Pair) (st : St σ τ) (t : τ), st.sec = some t → st.checked = false → st.c2 = c2 →
      Yields P.S t ps → Yields P.M st.m l → (∀ r ∈ l, Yields P.S (P.opn c2 r.2) (g r.2)) →
      (∀ r ∈ l, g r.2 ≠ []) →
      Yields (itr P) st (ps.map (fun y => ((P.M.val st.m).1, y.2)) ++ pairs g l) := by
  induction l with
  | nil =>
    intro ps
    induction ps with
    | nil =>
      intro st t h1 h2 h3 h4 h5 _ _
      rw [yields_nil] at h4 h5
      refine ended ?_
      simp [hasNext, h1, h2, h4, h5, ha]
    | cons p ps ih =>
      intro st t h1 h2 h3 h4 h5 h6 h7
      rw [yields_cons] at h4
      obtain ⟨h4, rfl, h8⟩ := h4
      have h9 := ih (next P { st with sec := some (P.S.next (P.S.hasNext t).2), n := true, checked := true }) _ rfl rfl h3 h8 h5 h6 h7
      have h10 := found (P := P) (st := st) (by simp [hasNext, h1, h2, h4]) h9
      simpa [next, hns] using h10
  | cons r l ihl =>
    intro ps
    induction ps with
    | nil =>
      intro st t h1 h2 h3 h4 h5 h6 h7
      rw [yields_nil] at h4
      rw [yields_cons] at h5
      obtain ⟨h5, rfl, h8⟩ := h5
      have h9 := h6 _ List.mem_cons_self
      have h10 := h7 _ List.mem_cons_self
      rw [pairs_cons]
      revert h9 h10
      generalize hq : g (P.M.val (P.M.next (P.M.hasNext st.m).2)).2 = q
      intro h9 h10
      cases q with
      | nil => exact absurd rfl h10
      | cons y q =>
        rw [yields_cons] at h9
        obtain ⟨h9, rfl, h11⟩ := h9
        have h12 := ihl q (next P { st with m := P.M.next (P.M.hasNext st.m).2, sec := some (P.S.next (P.S.hasNext (P.opn c2 (P.M.val (P.M.next (P.M.hasNext st.m).2)).2)).2), n := true, checked := true }) _ rfl rfl h3 h11 h8
          (fun r hr => h6 r (List.mem_cons_of_mem _ hr)) (fun r hr => h7 r (List.mem_cons_of_mem _ hr))
        have h13 := found (P := P) (st := st) (by simp [hasNext, h1, h2, h3, h4, h5, h9, ha]) h12
        simpa [next, hns] using h13
    | cons p ps ih =>
      intro st t h1 h2 h3 h4 h5 h6 h7
      rw [yields_cons] at h4
      obtain ⟨h4, rfl, h8⟩ := h4
      have h9 := ih (next P { st with sec := some (P.S.next (P.S.hasNext t).2), n := true, checked := true }) _ rfl rfl h3 h8 h5 h6 h7
      have h10 := found (P := P) (st := st) (by simp [hasNext, h1, h2, h4]) h9
      simpa [next, hns] using h10

/-- The rows from a state after `next` when the main table has a first constraint: only those
of the current second table. -/
theorem runOne {P : Parts σ τ} (hns : P.noSec = false) (ha : P.anyFirst = false) (ps : List Pair) :
    ∀ (st : St σ τ) (t : τ), st.sec = some t → st.checked = false →
      Yields P.S t ps → Yields (itr P) st (ps.map (fun y => ((P.M.val st.m).1, y.2))) := by
  induction ps with
  | nil =>
    intro st t h1 h2 h4
    rw [yields_nil] at h4
    refine ended ?_
    simp [hasNext, h1, h2, h4, ha]
  | cons p ps ih =>
    intro st t h1 h2 h4
    rw [yields_cons] at h4
    obtain ⟨h4, rfl, h8⟩ := h4
    have h9 := ih (next P { st with sec := some (P.S.next (P.S.hasNext t).2), n := true, checked := true }) _ rfl rfl h8
    have h10 := found (P := P) (st := st) (by simp [hasNext, h1, h2, h4]) h9
    simpa [next, hns] using h10

/-- The rows from a state in which no second table is open. -/
theorem start {P : Parts σ τ} (hns : P.noSec = false) {st : St σ τ} (hs1 : st.sec = none)
    (hs2 : st.checked = false) (hs3 : st.c2 = none) {l : List Pair}
    (hm : Yields P.M st.m l) {g : Int → List Pair}
    (hg : ∀ r ∈ l, Yields P.S (P.opn none r.2) (g r.2))
    (hc : (P.anyFirst = true ∧ ∀ r ∈ l, g r.2 ≠ []) ∨ (P.anyFirst = false ∧ l.length ≤ 1)) :
    Yields (itr P) st (pairs g l) := by
  cases l with
  | nil =>
    rw [yields_nil] at hm
    refine ended ?_
    simp [hasNext, hs1, hs2, hs3, hm]
  | cons r l =>
    rw [yields_cons] at hm
    obtain ⟨h5, rfl, h8⟩ := hm
    have h9 := hg _ List.mem_cons_self
    rw [pairs_cons]
    revert h9
    generalize hq : g (P.M.val (P.M.next (P.M.hasNext st.m).2)).2 = q
    intro h9
    cases q with
    | nil =>
      have hl : l = [] := by
        rcases hc with hc | hc
        · exact absurd hq (hc.2 _ List.mem_cons_self)
        · exact List.length_eq_zero_iff.1 (by have := hc.2; simp at this; simpa using this)
      subst hl
      rw [yields_nil] at h9
      refine ended ?_
      simp [hasNext, hs1, hs2, hs3, h5, hns, h9]
    | cons y q =>
      rw [yields_cons] at h9
      obtain ⟨h9, rfl, h11⟩ := h9
      let st' : St σ τ := { st with m := P.M.next (P.M.hasNext st.m).2, sec := some (P.S.next (P.S.hasNext (P.opn none (P.M.val (P.M.next (P.M.hasNext st.m).2)).2)).2), n := true, checked := true }
      have hf : hasNext P st = (true, st') := by simp [hasNext, hs1, hs2, hs3, h5, hns, h9, st']
      rcases hc with hc | hc
      · have h12 := run hns hc.1 (c2 := none) (g := g) l q (next P st') _ rfl rfl hs3 h11 h8
          (fun r hr => hg r (List.mem_cons_of_mem _ hr)) (fun r hr => hc.2 r (List.mem_cons_of_mem _ hr))
        have h13 := found hf h12
        simpa [next, hns, st'] using h13
      · have hl : l = [] := List.length_eq_zero_iff.1 (by have := hc.2; simp at this; simpa using this)
        subst hl
        have h12 := runOne hns hc.1 q (next P st') _ rfl rfl h11
        have h13 := found hf h12
        simpa [next, hns, st', pairs] using h13

/-- **C119 (pairs).** Without a constraint on the first column, or with one and at most one
row in the main table, an aggregated table returns the pairs it stands for, in their order.
Without a constraint no second table may be empty. -/
theorem C119_pairs_partial {P : Parts σ τ} (hns : P.noSec = false) {m : σ} {l : List Pair}
    (hm : Yields P.M m l) {g : Int → List Pair}
    (hg : ∀ r ∈ l, Yields P.S (P.opn none r.2) (g r.2))
    (hc : (P.anyFirst = true ∧ ∀ r ∈ l, g r.2 ≠ []) ∨ (P.anyFirst = false ∧ l.length ≤ 1)) :
    Yields (itr P) (init m) (pairs g l) := start hns rfl rfl rfl hm hg hc

/-- With `noSecColumn` the rows from a state after `next`. -/
theorem runFirst {P : Parts σ τ} (hns : P.noSec = true) {card : τ → Nat}
    (hcard : ∀ t l, Yields P.S t l → card t = l.length) {g : Int → List Pair} {m : σ}
    {l : List Pair} (hm : Yields P.M m l) (hg : ∀ r ∈ l, Yields P.S (P.opn none r.2) (g r.2)) :
    ∀ st : St σ τ, st.m = m → st.sec = none → st.checked = false → st.c2 = none →
      Yields (itrCount P card) st (l.map fun r => (r.1, ((g r.2).length : Int))) := by
  induction hm with
  | done h =>
    intro st h1 h2 h3 h4
    subst h1
    exact .done (by simp [itrCount, hasNext, h2, h3, h])
  | @step s l h hy ih =>
    intro st h1 h2 h3 h4
    subst h1
    have hf : (itrCount P card).hasNext st = (true, { st with m := P.M.next (P.M.hasNext st.m).2, n := true, checked := true }) := by
      simp [itrCount, hasNext, h2, h3, h, hns]
    rw [List.map_cons, yields_cons, hf]
    refine ⟨rfl, ?_, ih (fun r hr => hg r (List.mem_cons_of_mem _ hr)) _ rfl h2 rfl h4⟩
    have := hcard _ _ (hg _ List.mem_cons_self)
    simp [itrCount, next, h4, this]

/-- **C119 (first column).** With the second column ignored, an aggregated table returns each
first value of the main table once, and `getCount` is the number of its pairs. -/
theorem C119_first {P : Parts σ τ} (hns : P.noSec = true) {card : τ → Nat}
    (hcard : ∀ t l, Yields P.S t l → card t = l.length) {m : σ} {l : List Pair}
    (hm : Yields P.M m l) {g : Int → List Pair}
    (hg : ∀ r ∈ l, Yields P.S (P.opn none r.2) (g r.2)) :
    Yields (itrCount P card) (init m) (l.map fun r => (r.1, ((g r.2).length : Int))) :=
  runFirst hns hcard hm hg _ rfl rfl rfl rfl

/-- **C119 (coordinates).** The coordinates of a table give its strategy, file and position. -/
theorem C119_coordinates_partial {s f p : Nat} (hs : s < 256) (hf : f < 2 ^ 15) (hp : p < 2 ^ 31) :
    strategyOf (coordinates s f p) = s ∧ fileOf (coordinates s f p) = f ∧ posOf (coordinates s f p) = p := by
  unfold strategyOf fileOf posOf coordinates
  refine ⟨by omega, ?_, ?_⟩
  · have : (s % 256 * 2 ^ 48 + f * 2 ^ 32 + p) / 2 ^ 32 % 2 ^ 16 = f := by omega
    rw [this, if_pos hf]
  · have : (s % 256 * 2 ^ 48 + f * 2 ^ 32 + p) % 2 ^ 32 = p := by omega
    rw [this, if_pos hp]

/-- **C119, violated.** From position 2^31 of a file on the position that is read is negative,
and from file 2^15 on the number of the file. -/
theorem C119_coordinates_violated {s f p : Nat} :
    (f < 2 ^ 16 → 2 ^ 31 ≤ p → p < 2 ^ 32 → posOf (coordinates s f p) < 0) ∧
    (2 ^ 15 ≤ f → f < 2 ^ 16 → p < 2 ^ 32 → fileOf (coordinates s f p) < 0) := by
  unfold fileOf posOf coordinates
  refine ⟨fun hf h1 h2 => ?_, fun h1 h2 hp => ?_⟩
  · have : (s % 256 * 2 ^ 48 + f * 2 ^ 32 + p) % 2 ^ 32 = p := by omega
    rw [this, if_neg (by omega)]
    omega
  · have : (s % 256 * 2 ^ 48 + f * 2 ^ 32 + p) / 2 ^ 32 % 2 ^ 16 = f := by omega
    rw [this, if_neg (by omega)]
    omega

/-- The rows from a state in which `hasNext` has found a row. -/
theorem checkedRun {P : Parts σ τ} (hns : P.noSec = false) (ha : P.anyFirst = true)
    {c2 : Option Int} {g : Int → List Pair} {l ps : List Pair} {st : St σ τ} {t : τ}
    (h1 : st.sec = some t) (h2 : st.checked = true) (hn : st.n = true) (h3 : st.c2 = c2)
    (h4 : Yields P.S t ps) (h5 : Yields P.M st.m l)
    (h6 : ∀ r ∈ l, Yields P.S (P.opn c2 r.2) (g r.2)) (h7 : ∀ r ∈ l, g r.2 ≠ []) :
    Yields (itr P) st ((P.S.val t :: ps).map (fun y => ((P.M.val st.m).1, y.2)) ++ pairs g l) := by
  have h8 := run hns ha (c2 := c2) (g := g) l ps (next P st) t h1 rfl h3 h4 h5 h6 h7
  have h9 := found (P := P) (st := st) (st' := st) (by simp [hasNext, h2, hn]) h8
  simpa [next, hns, h1] using h9

/-- As `checkedRun`, with a first constraint. -/
theorem checkedOne {P : Parts σ τ} (hns : P.noSec = false) (ha : P.anyFirst = false)
    {ps : List Pair} {st : St σ τ} {t : τ}
    (h1 : st.sec = some t) (h2 : st.checked = true) (hn : st.n = true)
    (h4 : Yields P.S t ps) :
    Yields (itr P) st ((P.S.val t :: ps).map (fun y => ((P.M.val st.m).1, y.2))) := by
  have h8 := runOne hns ha ps (next P st) t h1 rfl h4
  have h9 := found (P := P) (st := st) (st' := st) (by simp [hasNext, h2, hn]) h8
  simpa [next, hns, h1] using h9

theorem checkedEnd {P : Parts σ τ} {st : St σ τ} (h2 : st.checked = true) (hn : st.n = false) :
    Yields (itr P) st [] := ended (by simp [hasNext, h2, hn])

/-- A second table: its rows have the key as first value, a second constraint keeps the
matching rows, and seeks are right. -/
structure Second (P : Parts σ τ) (g : Int → List Pair) (c : Int) : Prop where
  rows : Yields P.S (P.opn none c) (g c)
  only : ∀ v, Yields P.S (P.opn (some v) c) ((g c).filter fun y => decide (y.2 = v))
  key : ∀ y ∈ g c, y.1 = P.key
  sorted : SortedS (g c)
  seek : SeekOK P.S P.mvS (P.opn none c) (g c)
  seekOnly : ∀ v, SeekOK P.S P.mvS (P.opn (some v) c) ((g c).filter fun y => decide (y.2 = v))

/-- In a second table there is at most one row with a given second value. -/
theorem Second.one {P : Parts σ τ} {g : Int → List Pair} {c : Int} (h : Second P g c) (v : Int) :
    (g c).filter (fun y => decide (y.2 = v)) = [] ∨ (g c).filter (fun y => decide (y.2 = v)) = [(P.key, v)] := by
  have hs : SortedS ((g c).filter fun y => decide (y.2 = v)) := h.sorted.filter _
  have hm : ∀ y ∈ (g c).filter (fun y => decide (y.2 = v)), y = (P.key, v) := by
    intro y hy
    simp at hy
    exact Prod.ext (h.key y hy.1) hy.2
  generalize (g c).filter (fun y => decide (y.2 = v)) = q at hs hm
  match q, hs, hm with
  | [], _, _ => exact .inl rfl
  | [y], _, hm => exact .inr (by rw [hm y (by simp)])
  | y :: z :: q, hs, hm =>
    have h1 := hm y (by simp)
    have h2 := hm z (by simp)
    subst h1 h2
    have := List.rel_of_pairwise_cons hs (a' := (P.key, v)) (by simp)
    simp [Pair.lt] at this

/-- The first row of a second table with a constraint, and the seek after it. -/
theorem openSeek {P : Parts σ τ} {s : τ} {y : Pair} {q : List Pair} (h : Yields P.S s (y :: q))
    (hs : SeekOK P.S P.mvS s (y :: q)) (c1 c2 : Int) :
    (P.S.hasNext s).1 = true ∧ Yields P.S (P.mvS c1 c2 (P.S.next (P.S.hasNext s).2))
      ((y :: q).filter fun p => decide (Pair.le (c1, c2) p)) := by
  rw [yields_cons] at h
  obtain ⟨h1, h2, h3⟩ := h
  refine ⟨h1, ?_⟩
  obtain ⟨pre, rest, _, h5, h6⟩ := hs _ (.first h1)
  have h7 := h6 c1 c2
  rw [h5.unique h3, h2] at h7
  exact h7

/-- What `seekSecond` gives if the seek leaves no row, or some. -/
theorem seekSecond_nil {P : Parts σ τ} {c : Int} {t : τ} (h : Yields P.S (P.mvS P.key c t) []) :
    (seekSecond P c t).1 = false := by
  rw [yields_nil] at h
  simp [seekSecond, h]

theorem seekSecond_cons {P : Parts σ τ} {c : Int} {t : τ} {y : Pair} {q : List Pair}
    (h : Yields P.S (P.mvS P.key c t) (y :: q)) :
    (seekSecond P c t).1 = true ∧ P.S.val (seekSecond P c t).2 = y ∧ Yields P.S (seekSecond P c t).2 q := by
  rw [yields_cons] at h
  obtain ⟨h1, h2, h3⟩ := h
  simp [seekSecond, h1, h2, h3]

/-- The branch of `moveto` for seeks that go forward, when the main table has a row. -/
theorem moveto_forward {P : Parts σ τ} (hns : P.noSec = false) {st : St σ τ} {c1 c2 : Int}
    (hf : ¬(c1 < st.v1 ∨ (c1 = st.v1 ∧ (P.noSec = true ∨ c2 ≤ st.v2)))) {r : Pair} {l : List Pair}
    (hm : Yields P.M (P.mvM c1 0 st.m) (r :: l)) (hr : c1 ≤ r.1) :
    ∃ m, P.M.val m = r ∧ Yields P.M m l ∧ moveto P c1 c2 st =
      (if (openFirst P st.c2 m).1 then
        { st with m := m, sec := some (seekSecond P c2 (openFirst P st.c2 m).2).2, n := (seekSecond P c2 (openFirst P st.c2 m).2).1, checked := true }
      else { st with m := m, sec := some (openFirst P st.c2 m).2, n := false, checked := true }) := by
  rw [yields_cons] at hm
  obtain ⟨h1, h2, h3⟩ := hm
  refine ⟨_, h2, h3, ?_⟩
  unfold moveto
  rw [if_neg hf]
  simp only [h1, if_true, h2, hns]
  rw [if_neg (by omega)]
  simp

theorem openFirst_nil {P : Parts σ τ} {c2 : Option Int} {m : σ} (h : Yields P.S (P.opn c2 (P.M.val m).2) []) :
    (openFirst P c2 m).1 = false := by
  rw [yields_nil] at h
  simp [openFirst, h]

theorem openFirst_cons {P : Parts σ τ} {c2 : Option Int} {m : σ} (h : (P.S.hasNext (P.opn c2 (P.M.val m).2)).1 = true) :
    openFirst P c2 m = (true, P.S.next (P.S.hasNext (P.opn c2 (P.M.val m).2)).2) := by
  simp [openFirst, h]

/-- The state in which `get` seeks. -/
theorem get_seeks {P : Parts σ τ} (hns : P.noSec = false) (setC : Int → τ → τ) {m : σ} {r : Pair}
    {l : List Pair} (hm : Yields P.M m (r :: l)) {y : Pair} {q : List Pair}
    (hg : Yields P.S (P.opn none r.2) (y :: q)) (v1 v2 : Int) :
    ∃ st : St σ τ, st.m = P.M.next (P.M.hasNext m).2 ∧ st.v1 = -1 ∧ st.v2 = -1 ∧ st.c2 = some v2 ∧
      get P setC m v1 v2 = moveto P v1 v2 st := by
  rw [yields_cons] at hm
  obtain ⟨h1, rfl, h3⟩ := hm
  rw [yields_cons] at hg
  refine ⟨setConstraint2 setC v2 (hasNext P (init m)).2, ?_, ?_, ?_, rfl, ?_⟩ <;>
    simp [get, hasNext, init, h1, hns, hg.1, setConstraint2]

/-- A first read of the main table, then a seek. -/
theorem mainSeek {P : Parts σ τ} {m : σ} {r : Pair} {l : List Pair} (hm : Yields P.M m (r :: l))
    (hs : SeekOK P.M P.mvM m (r :: l)) (c1 c2 : Int) :
    Yields P.M (P.mvM c1 c2 (P.M.next (P.M.hasNext m).2)) ((r :: l).filter fun p => decide (Pair.le (c1, c2) p)) := by
  rw [yields_cons] at hm
  obtain ⟨h1, h2, h3⟩ := hm
  obtain ⟨pre, rest, _, h5, h6⟩ := hs _ (.first h1)
  have h7 := h6 c1 c2
  rw [h5.unique h3, h2] at h7
  exact h7

/-- **C119 (lookups).** A lookup of a pair in an aggregated table, whose main table is
restricted to the first value, returns the pair exactly if it is one of the pairs of the
table. -/
theorem C119_lookup_partial {P : Parts σ τ} (hns : P.noSec = false) (ha : P.anyFirst = false)
    (setC : Int → τ → τ) {m : σ} {v1 v2 : Int} (h1 : 0 ≤ v1) {l : List Pair}
    (hl : l = [] ∨ ∃ c, 0 ≤ c ∧ l = [(v1, c)]) (hm : Yields P.M m l)
    (hs : SeekOK P.M P.mvM m l) {g : Int → List Pair} (hg : ∀ r ∈ l, Second P g r.2) :
    Yields (itr P) (get P setC m v1 v2) (if (v1, v2) ∈ pairs g l then [(v1, v2)] else []) := by
  rcases hl with rfl | ⟨c, hc, rfl⟩
  · rw [yields_nil] at hm
    have : get P setC m v1 v2 = (hasNext P (init m)).2 := by simp [get, hasNext, init, hm]
    rw [this]
    simp only [pairs, List.flatMap_nil, List.not_mem_nil, if_false]
    exact checkedEnd (by simp [hasNext, init, hm]) (by simp [hasNext, init, hm])
  · have hg := hg _ List.mem_cons_self
    have hmem : (v1, v2) ∈ pairs g [(v1, c)] ↔ (g c).filter (fun y => decide (y.2 = v2)) ≠ [] := by
      simp [pairs]
    have hrows := hg.rows
    simp only at hrows
    generalize hq : g c = q at hrows
    cases q with
    | nil =>
      have hno : ¬ (v1, v2) ∈ pairs g [(v1, c)] := by simp [hmem, hq]
      rw [if_neg hno]
      rw [yields_cons] at hm
      obtain ⟨h2, h3, h4⟩ := hm
      rw [yields_nil] at hrows
      have : get P setC m v1 v2 = (hasNext P (init m)).2 := by
        simp [get, hasNext, init, h2, hns, h3, hrows]
      rw [this]
      exact checkedEnd (by simp [hasNext, init, h2, hns]) (by simp [hasNext, init, h2, hns, h3, hrows])
    | cons y q =>
      obtain ⟨st, e1, e2, e3, e4, e5⟩ := get_seeks hns setC hm hrows v1 v2
      have hk := mainSeek hm hs v1 0
      have hfil : [((v1, c) : Pair)].filter (fun p => decide (Pair.le (v1, 0) p)) = [(v1, c)] := by
        simp [Pair.le, hc]
      rw [hfil, ← e1] at hk
      obtain ⟨m', f1, f2, f3⟩ := moveto_forward hns (c1 := v1) (c2 := v2) (by rw [e2]; omega) hk (Int.le_refl _)
      rw [e5, f3]
      have ho := hg.only v2
      have hso := hg.seekOnly v2
      have hone := hg.one v2
      simp only at ho hso hone
      rcases hone with hone | hone
      · rw [hone] at ho
        have h5 : (openFirst P st.c2 m').1 = false := openFirst_nil (by rw [e4, f1]; exact ho)
        rw [if_neg (by simp [h5]), if_neg (by simp [hmem, hone])]
        exact checkedEnd rfl rfl
      · rw [hone] at ho hso
        obtain ⟨h5, h6⟩ := openSeek ho hso P.key v2
        have h7 := openFirst_cons (P := P) (c2 := st.c2) (m := m') (by rw [e4, f1]; exact h5)
        rw [if_pos (by rw [h7]), if_pos (by simp [hmem, hone])]
        have h8 : [(P.key, v2)].filter (fun p => decide (Pair.le (P.key, v2) p)) = [(P.key, v2)] := by
          simp [Pair.le]
        rw [h8] at h6
        have h9 := seekSecond_cons (P := P) (c := v2) (t := (openFirst P st.c2 m').2) (by rw [h7, e4, f1]; exact h6)
        have h10 := checkedOne (P := P) hns ha (st := { st with m := m', sec := some (seekSecond P v2 (openFirst P st.c2 m').2).2, n := (seekSecond P v2 (openFirst P st.c2 m').2).1, checked := true }) rfl rfl h9.1 h9.2.2
        simpa [h9.2.1, f1] using h10

/-- **C119, violated.** A lookup of a second value without a first value returns nothing if the
first row of the main table does not have it, although pairs of later rows do. -/
theorem C119_lookup_violated {P : Parts σ τ} (hns : P.noSec = false)
    (setC : Int → τ → τ) {m : σ} {v2 : Int} (h2 : 0 ≤ v2) {v c : Int} (hv : 0 ≤ v) {l : List Pair}
    (hm : Yields P.M m ((v, c) :: l)) (hs : SeekOK P.M P.mvM m ((v, c) :: l))
    {g : Int → List Pair} (hg : Second P g c) (hne : g c ≠ []) (hno : ∀ y ∈ g c, y.2 ≠ v2)
    {w : Int} (hw : (w, v2) ∈ pairs g l) :
    (w, v2) ∈ pairs g ((v, c) :: l) ∧ Yields (itr P) (get P setC m (-1) v2) [] := by
  refine ⟨by rw [pairs_cons]; exact List.mem_append_right _ hw, ?_⟩
  obtain ⟨y, q, hq⟩ := List.exists_cons_of_ne_nil hne
  have hrows := hg.rows
  rw [hq] at hrows
  obtain ⟨st, e1, e2, e3, e4, e5⟩ := get_seeks hns setC hm hrows (-1) v2
  have hk := mainSeek hm hs (-1) 0
  rw [← e1, List.filter_cons_of_pos (by simp only [decide_eq_true_eq]; unfold Pair.le; omega)] at hk
  obtain ⟨m', f1, f2, f3⟩ := moveto_forward hns (c1 := -1) (c2 := v2) (by rw [e2, e3, hns]; simp; omega) hk (by show -1 ≤ v; omega)
  rw [e5, f3]
  have ho := hg.only v2
  have hone : (g c).filter (fun y => decide (y.2 = v2)) = [] := by
    rw [List.filter_eq_nil_iff]
    intro y hy
    simpa using hno y hy
  rw [hone] at ho
  have h5 : (openFirst P st.c2 m').1 = false := openFirst_nil (by rw [e4, f1]; exact ho)
  rw [if_neg (by simp [h5])]
  exact checkedEnd rfl rfl

/-- What is left after a forward seek: `L` are the rows of the main table that are left. -/
def afterSeek (g : Int → List Pair) (c2 : Int) : List Pair → List Pair
  | [] => []
  | r :: l =>
    if (g r.2).filter (fun y => decide (c2 ≤ y.2)) = [] then []
    else ((g r.2).filter fun y => decide (c2 ≤ y.2)).map (fun y => (r.1, y.2)) ++ pairs g l

theorem afterSeek_cons (g : Int → List Pair) (c2 : Int) (r : Pair) (l : List Pair) :
    afterSeek g c2 (r :: l) = if (g r.2).filter (fun y => decide (c2 ≤ y.2)) = [] then []
      else ((g r.2).filter fun y => decide (c2 ≤ y.2)).map (fun y => (r.1, y.2)) ++ pairs g l := rfl

/-- What the code does in a forward seek. -/
theorem seek_result {P : Parts σ τ} (hns : P.noSec = false) (ha : P.anyFirst = true)
    {m0 : σ} {rows : List Pair} (hs : SeekOK P.M P.mvM m0 rows) {st : St σ τ}
    (hr : Reached P.M P.mvM m0 st.m) (hv : st.v1 = (P.M.val st.m).1) (h2 : st.c2 = none)
    {rest : List Pair} (hy : Yields P.M st.m rest) {g : Int → List Pair}
    (hg : ∀ r ∈ rest, Second P g r.2 ∧ g r.2 ≠ [] ∧ 0 ≤ r.2) {c1 c2 : Int} (hc : st.v1 < c1) :
    Yields (itr P) (moveto P c1 c2 st) (afterSeek g c2 (rest.filter fun r => decide (c1 ≤ r.1))) := by
  obtain ⟨pre, rest', _, h4, h5⟩ := hs _ hr
  have h6 := h5 c1 0
  rw [h4.unique hy, List.filter_cons_of_neg (by simp only [decide_eq_true_eq]; unfold Pair.le; simp only; omega)] at h6
  have h7 : rest.filter (fun p => decide (Pair.le (c1, 0) p)) = rest.filter fun r => decide (c1 ≤ r.1) := by
    apply List.filter_congr
    intro r hr'
    have := (hg r hr').2.2
    rw [decide_eq_decide]
    unfold Pair.le
    simp only
    omega
  rw [h7] at h6
  have hin : ∀ r ∈ rest.filter (fun r => decide (c1 ≤ r.1)), r ∈ rest ∧ c1 ≤ r.1 := by
    intro r hr'
    simpa using hr'
  generalize rest.filter (fun r => decide (c1 ≤ r.1)) = L at h6 hin
  have hf : ¬(c1 < st.v1 ∨ (c1 = st.v1 ∧ (P.noSec = true ∨ c2 ≤ st.v2))) := by omega
  cases L with
  | nil =>
    rw [yields_nil] at h6
    refine checkedEnd ?_ ?_ <;> (unfold moveto; rw [if_neg hf]; simp [h6])
  | cons r l =>
    obtain ⟨m', f1, f2, f3⟩ := moveto_forward hns (c1 := c1) (c2 := c2) hf h6 (hin r List.mem_cons_self).2
    obtain ⟨hG, hne, _⟩ := hg r (hin r List.mem_cons_self).1
    have hl : ∀ r ∈ l, Second P g r.2 ∧ g r.2 ≠ [] := fun r hr =>
      ⟨(hg r (hin r (List.mem_cons_of_mem _ hr)).1).1, (hg r (hin r (List.mem_cons_of_mem _ hr)).1).2.1⟩
    obtain ⟨y, q, hq⟩ := List.exists_cons_of_ne_nil hne
    have hrows := hG.rows
    have hsk := hG.seek
    rw [hq] at hrows hsk
    obtain ⟨h8, h9⟩ := openSeek hrows hsk P.key c2
    have h10 := openFirst_cons (P := P) (c2 := st.c2) (m := m') (by rw [h2, f1]; exact h8)
    have h11 : (g r.2).filter (fun p => decide (Pair.le (P.key, c2) p)) = (g r.2).filter fun y => decide (c2 ≤ y.2) := by
      apply List.filter_congr
      intro y hy
      have := hG.key y hy
      rw [decide_eq_decide]
      unfold Pair.le
      simp only
      omega
    rw [← hq, h11] at h9
    rw [f3, if_pos (by rw [h10])]
    rw [afterSeek_cons]
    cases hF : (g r.2).filter (fun y => decide (c2 ≤ y.2)) with
    | nil =>
      rw [hF] at h9
      rw [if_pos rfl]
      exact checkedEnd rfl (seekSecond_nil (by rw [h10, h2, f1]; exact h9))
    | cons z F =>
      rw [hF] at h9
      rw [if_neg (by simp)]
      have h12 := seekSecond_cons (P := P) (c := c2) (t := (openFirst P st.c2 m').2) (by rw [h10, h2, f1]; exact h9)
      have h13 := checkedRun (P := P) hns ha (g := g) (c2 := none) (l := l) (st := { st with m := m', sec := some (seekSecond P c2 (openFirst P st.c2 m').2).2, n := (seekSecond P c2 (openFirst P st.c2 m').2).1, checked := true }) rfl rfl h12.1 h2 h12.2.2 f2
        (fun r hr => (hl r hr).1.rows) (fun r hr => (hl r hr).2)
      rw [h12.2.1] at h13
      simpa [f1] using h13

theorem pairs_all {g : Int → List Pair} {l : List Pair} {c1 c2 : Int} (h : ∀ r ∈ l, c1 < r.1) :
    (pairs g l).filter (fun p => decide (Pair.le (c1, c2) p)) = pairs g l := by
  rw [List.filter_eq_self]
  intro p hp
  simp only [pairs, List.mem_flatMap, List.mem_map] at hp
  obtain ⟨r, hr, y, _, rfl⟩ := hp
  have := h r hr
  simp only [decide_eq_true_eq]
  unfold Pair.le
  exact .inl this

/-- The pairs from `(c1, c2)` on, if the main table has the first value `c1`. -/
theorem pairs_from {g : Int → List Pair} {c1 c2 c : Int} {rest l : List Pair}
    (hs : rest.Pairwise fun a b => a.1 < b.1)
    (h : rest.filter (fun r => decide (c1 ≤ r.1)) = (c1, c) :: l) :
    (pairs g rest).filter (fun p => decide (Pair.le (c1, c2) p)) =
      ((g c).filter fun y => decide (c2 ≤ y.2)).map (fun y => (c1, y.2)) ++ pairs g l := by
  induction rest with
  | nil => simp at h
  | cons r rest ih =>
    rw [List.pairwise_cons] at hs
    rw [pairs_cons, List.filter_append]
    by_cases hr : c1 ≤ r.1
    · rw [List.filter_cons_of_pos (by simpa using hr)] at h
      injection h with h1 h2
      subst h1
      have h3 : rest.filter (fun r => decide (c1 ≤ r.1)) = rest := by
        rw [List.filter_eq_self]
        intro a ha
        have := hs.1 a ha
        simp only [decide_eq_true_eq]
        exact Int.le_of_lt this
      rw [h3] at h2
      subst h2
      rw [pairs_all hs.1, List.filter_map]
      congr 2
      apply List.filter_congr
      intro y _
      simp [Pair.le]
    · rw [List.filter_cons_of_neg (by simpa using hr)] at h
      rw [ih hs.2 h]
      have h4 : ((g r.2).map fun y => (r.1, y.2)).filter (fun p => decide (Pair.le (c1, c2) p)) = [] := by
        rw [List.filter_eq_nil_iff]
        intro p hp
        simp only [List.mem_map] at hp
        obtain ⟨y, _, rfl⟩ := hp
        simp only [decide_eq_true_eq]
        unfold Pair.le
        simp only
        omega
      rw [h4, List.nil_append]

/-- **C119 (seeks).** After a forward seek to `(c1, c2)` an aggregated table returns exactly the
pairs from `(c1, c2)` on, if `c1` is a first value that has a second value from `c2` on, or if
no first value from `c1` on is left. -/
theorem C119_seek_partial {P : Parts σ τ} (hns : P.noSec = false) (ha : P.anyFirst = true)
    {m0 : σ} {rows : List Pair} (hs : SeekOK P.M P.mvM m0 rows) {st : St σ τ}
    (hr : Reached P.M P.mvM m0 st.m) (hv : st.v1 = (P.M.val st.m).1) (h2 : st.c2 = none)
    {rest : List Pair} (hy : Yields P.M st.m rest) (hp : rest.Pairwise fun a b => a.1 < b.1)
    {g : Int → List Pair} (hg : ∀ r ∈ rest, Second P g r.2 ∧ g r.2 ≠ [] ∧ 0 ≤ r.2)
    {c1 c2 : Int} (hc : st.v1 < c1)
    (hok : (∃ y, c2 ≤ y ∧ (c1, y) ∈ pairs g rest) ∨ ∀ r ∈ rest, r.1 < c1) :
    Yields (itr P) (moveto P c1 c2 st)
      ((pairs g rest).filter fun p => decide (Pair.le (c1, c2) p)) := by
  have h := seek_result hns ha hs hr hv h2 hy hg (c2 := c2) hc
  rcases hok with ⟨y, hy2, hmem⟩ | hnone
  · simp only [pairs, List.mem_flatMap, List.mem_map] at hmem
    obtain ⟨r, hr1, z, hz, he⟩ := hmem
    injection he with e1 e2
    cases hL : rest.filter (fun r => decide (c1 ≤ r.1)) with
    | nil =>
      rw [List.filter_eq_nil_iff] at hL
      exact absurd (by simp [e1]) (hL r hr1)
    | cons a l =>
      have hrL : r ∈ a :: l := by rw [← hL]; simp [hr1, e1]
      have haL : c1 ≤ a.1 := by
        have : a ∈ rest.filter (fun r => decide (c1 ≤ r.1)) := by rw [hL]; exact List.mem_cons_self
        simpa using (List.mem_filter.1 this).2
      have hpL : (a :: l).Pairwise fun a b => a.1 < b.1 := by rw [← hL]; exact hp.filter _
      have har : a = r := by
        rcases List.mem_cons.1 hrL with h3 | h3
        · exact h3.symm
        · have := List.rel_of_pairwise_cons hpL h3
          omega
      subst har
      have ha' : a = (c1, a.2) := Prod.ext e1 rfl
      rw [hL] at h
      rw [ha'] at hL
      rw [pairs_from hp hL]
      rw [afterSeek_cons] at h
      rw [if_neg (by
        intro h5
        rw [List.filter_eq_nil_iff] at h5
        exact h5 z hz (by simp; omega))] at h
      rw [e1] at h
      exact h
  · have hL : rest.filter (fun r => decide (c1 ≤ r.1)) = [] := by
      rw [List.filter_eq_nil_iff]
      intro r hr1
      have := hnone r hr1
      simp only [decide_eq_true_eq]
      omega
    have hN : (pairs g rest).filter (fun p => decide (Pair.le (c1, c2) p)) = [] := by
      rw [List.filter_eq_nil_iff]
      intro p hp'
      simp only [pairs, List.mem_flatMap, List.mem_map] at hp'
      obtain ⟨r, hr1, y, _, rfl⟩ := hp'
      have := hnone r hr1
      simp only [decide_eq_true_eq]
      unfold Pair.le
      simp only
      omega
    rw [hL] at h
    rw [hN]
    exact h

/-- **C119, violated.** A seek to a first value that is not there loses the pairs of the next
first value `v` whose second value is below `c2`, although they are behind `(c1, c2)`. If all of
them are below `c2` it also ends the rows, whatever first values follow. -/
theorem C119_seek_violated {P : Parts σ τ} (hns : P.noSec = false) (ha : P.anyFirst = true)
    {m0 : σ} {rows : List Pair} (hs : SeekOK P.M P.mvM m0 rows) {st : St σ τ}
    (hr : Reached P.M P.mvM m0 st.m) (hv : st.v1 = (P.M.val st.m).1) (h2 : st.c2 = none)
    {v c : Int} {l : List Pair} (hy : Yields P.M st.m ((v, c) :: l)) (hp : ∀ r ∈ l, v < r.1)
    {g : Int → List Pair} (hg : ∀ r ∈ (v, c) :: l, Second P g r.2 ∧ g r.2 ≠ [] ∧ 0 ≤ r.2)
    {c1 c2 : Int} (hc : st.v1 < c1) (hcv : c1 < v) {y : Pair} (hyg : y ∈ g c) (hyc : y.2 < c2) :
    Pair.lt (c1, c2) (v, y.2) ∧ (v, y.2) ∈ pairs g ((v, c) :: l) ∧
    (∃ out, Yields (itr P) (moveto P c1 c2 st) out ∧ (v, y.2) ∉ out) ∧
    ((∀ z ∈ g c, z.2 < c2) → Yields (itr P) (moveto P c1 c2 st) []) := by
  have h := seek_result hns ha hs hr hv h2 hy hg (c2 := c2) hc
  rw [List.filter_cons_of_pos (by simp only [decide_eq_true_eq]; omega)] at h
  have hl : l.filter (fun r => decide (c1 ≤ r.1)) = l := by
    rw [List.filter_eq_self]
    intro r hr
    have := hp r hr
    simp only [decide_eq_true_eq]
    omega
  rw [hl] at h
  refine ⟨.inl hcv, ?_, ⟨_, h, ?_⟩, fun hz => ?_⟩
  · rw [pairs_cons]
    exact List.mem_append_left _ (List.mem_map.2 ⟨y, hyg, rfl⟩)
  · rw [afterSeek_cons]
    split
    · simp
    · intro hm
      rcases List.mem_append.1 hm with hm | hm
      · simp only [List.mem_map, List.mem_filter, decide_eq_true_eq] at hm
        obtain ⟨z, ⟨_, hz⟩, he⟩ := hm
        injection he with _ e2
        omega
      · simp only [pairs, List.mem_flatMap, List.mem_map] at hm
        obtain ⟨r, hr1, z, _, he⟩ := hm
        injection he with e1 _
        have := hp r hr1
        omega
  · rw [afterSeek_cons] at h
    rw [if_pos] at h
    · exact h
    · rw [List.filter_eq_nil_iff]
      intro z hz'
      have := hz z hz'
      simp only [decide_eq_true_eq]
      omega

/-- With the second column ignored, the rows from a state after `moveto`. -/
theorem checkedFirst {P : Parts σ τ} (hns : P.noSec = true) {card : τ → Nat}
    (hcard : ∀ t l, Yields P.S t l → card t = l.length) {g : Int → List Pair} {s : σ} {st : St σ τ}
    (h1 : st.sec = none) (h2 : st.c2 = none) {L : List Pair} (hL : Yields P.M s L)
    (hg : ∀ r ∈ L, Yields P.S (P.opn none r.2) (g r.2)) :
    Yields (itrCount P card)
      (if (P.M.hasNext s).1 then { st with m := P.M.next (P.M.hasNext s).2, n := true, checked := true }
       else { st with m := (P.M.hasNext s).2, n := false, checked := true })
      (L.map fun r => (r.1, ((g r.2).length : Int))) := by
  cases L with
  | nil =>
    rw [yields_nil] at hL
    exact .done (by simp [hL, itrCount, hasNext])
  | cons r l =>
    rw [yields_cons] at hL
    obtain ⟨h3, h4, h5⟩ := hL
    rw [if_pos h3, List.map_cons, yields_cons]
    refine ⟨rfl, ?_, ?_⟩
    · have := hcard _ _ (hg _ List.mem_cons_self)
      simp [itrCount, next, hasNext, h2, h4, this]
    · exact runFirst hns hcard h5 (fun r hr => hg r (List.mem_cons_of_mem _ hr)) _ rfl h1 rfl h2

/-- **C119 (seeks in the first column).** With the second column ignored, a seek leaves exactly
the first values from `c1` on, the current one included, with their numbers of pairs. -/
theorem C119_first_seek {P : Parts σ τ} (hns : P.noSec = true) {card : τ → Nat}
    (hcard : ∀ t l, Yields P.S t l → card t = l.length) {m0 : σ} {rows : List Pair}
    (hs : SeekOK P.M P.mvM m0 rows) (hp : rows.Pairwise fun a b => a.1 < b.1) {st : St σ τ}
    (hr : Reached P.M P.mvM m0 st.m) (hv : st.v1 = (P.M.val st.m).1) (h1 : st.sec = none)
    (h2 : st.c2 = none) {rest : List Pair} (hy : Yields P.M st.m rest) {g : Int → List Pair}
    (hg : ∀ r ∈ rows, Yields P.S (P.opn none r.2) (g r.2) ∧ 0 ≤ r.2) (c1 c2 : Int) :
    Yields (itrCount P card) (moveto P c1 c2 st)
      (((P.M.val st.m :: rest).filter fun r => decide (c1 ≤ r.1)).map fun r => (r.1, ((g r.2).length : Int))) := by
  obtain ⟨pre, rest', h3, h4, h5⟩ := hs _ hr
  rw [h4.unique hy] at h3 h5
  have hp' : (P.M.val st.m :: rest).Pairwise fun a b => a.1 < b.1 := by
    rw [h3] at hp
    exact (List.pairwise_append.1 hp).2.1
  have hin : ∀ r ∈ P.M.val st.m :: rest, r ∈ rows := by
    intro r hr
    rw [h3]
    exact List.mem_append_right _ hr
  have hg' : ∀ r ∈ (P.M.val st.m :: rest).filter (fun r => decide (c1 ≤ r.1)), Yields P.S (P.opn none r.2) (g r.2) :=
    fun r hr => (hg r (hin r (List.mem_filter.1 hr).1)).1
  by_cases hc : c1 ≤ st.v1
  · have h6 := h5 st.v1 (P.M.val st.m).2
    have e : (P.M.val st.m :: rest).filter (fun p => decide (Pair.le (st.v1, (P.M.val st.m).2) p)) =
        (P.M.val st.m :: rest).filter fun r => decide (c1 ≤ r.1) := by
      apply List.filter_congr
      intro r hr
      rw [decide_eq_decide]
      unfold Pair.le
      simp only
      rcases List.mem_cons.1 hr with rfl | hr
      · omega
      · have := List.rel_of_pairwise_cons hp' hr
        omega
    rw [e] at h6
    have h7 := checkedFirst hns hcard (st := st) h1 h2 h6 hg'
    have h8 : c1 < st.v1 ∨ (c1 = st.v1 ∧ (P.noSec = true ∨ c2 ≤ st.v2)) := by
      rcases Int.lt_or_eq_of_le hc with hc | hc
      · exact .inl hc
      · exact .inr ⟨hc, .inl hns⟩
    unfold moveto
    rw [if_pos h8]
    simpa [hns] using h7
  · have h6 := h5 c1 0
    have e : (P.M.val st.m :: rest).filter (fun p => decide (Pair.le (c1, 0) p)) =
        (P.M.val st.m :: rest).filter fun r => decide (c1 ≤ r.1) := by
      apply List.filter_congr
      intro r hr
      have := (hg r (hin r hr)).2
      rw [decide_eq_decide]
      unfold Pair.le
      simp only
      omega
    rw [e] at h6
    have h7 := checkedFirst hns hcard (st := st) h1 h2 h6 hg'
    have h8 : ¬(c1 < st.v1 ∨ (c1 = st.v1 ∧ (P.noSec = true ∨ c2 ≤ st.v2))) := by omega
    unfold moveto
    rw [if_neg h8]
    have h9 : (P.M.hasNext (P.mvM c1 0 st.m)).1 = true → ¬ (P.M.val (P.M.next (P.M.hasNext (P.mvM c1 0 st.m)).2)).1 < c1 := by
      intro h10
      generalize hq : (P.M.val st.m :: rest).filter (fun r => decide (c1 ≤ r.1)) = q at h6
      cases q with
      | nil => rw [yields_nil] at h6; simp [h6] at h10
      | cons a q =>
        rw [yields_cons] at h6
        have h11 : a ∈ (P.M.val st.m :: rest).filter (fun r => decide (c1 ≤ r.1)) := by rw [hq]; exact List.mem_cons_self
        have h12 := (List.mem_filter.1 h11).2
        simp only [decide_eq_true_eq] at h12
        rw [h6.2.1]
        omega
    by_cases h10 : (P.M.hasNext (P.mvM c1 0 st.m)).1 = true
    · simpa [hns, h10, h9 h10] using h7
    · simpa [hns, h10] using h7

/-- **C119 (back).** A seek to a pair that is not behind the current one stays at the current
pair: it is returned again, and then the pairs that are left. -/
theorem C119_back {P : Parts σ τ} (hns : P.noSec = false) (ha : P.anyFirst = true)
    {m0 : σ} {rows : List Pair} (hs : SeekOK P.M P.mvM m0 rows) (hso : SortedS rows) {st : St σ τ}
    (hr : Reached P.M P.mvM m0 st.m) {v c y : Int} (hv : P.M.val st.m = (v, c)) (h2 : st.c2 = none)
    {t : τ} (ht : st.sec = some t) {g : Int → List Pair} (hG : Second P g c)
    (hrt : Reached P.S P.mvS (P.opn none c) t) (hvt : P.S.val t = (P.key, y))
    (e1 : st.v1 = v) (e2 : st.v2 = y)
    {rest ps : List Pair} (hy : Yields P.M st.m rest) (hps : Yields P.S t ps)
    (hg : ∀ r ∈ rest, Yields P.S (P.opn none r.2) (g r.2) ∧ g r.2 ≠ [])
    {c1 c2 : Int} (hc : Pair.le (c1, c2) (v, y)) :
    Yields (itr P) (moveto P c1 c2 st)
      ((v, y) :: (ps.map (fun z => (v, z.2)) ++ pairs g rest)) := by
  have same : ∀ {ps rest pre : List Pair} {e : Pair}, SortedS ps → ps = pre ++ e :: rest →
      (e :: rest).filter (fun p => decide (Pair.le e p)) = e :: rest := by
    intro ps rest pre e h1 h2
    rw [h2] at h1
    have h3 := (List.pairwise_append.1 h1).2.1
    rw [List.filter_eq_self]
    intro p hp
    simp only [decide_eq_true_eq]
    rcases List.mem_cons.1 hp with rfl | hp
    · unfold Pair.le; omega
    · have := List.rel_of_pairwise_cons h3 hp
      unfold Pair.lt at this
      unfold Pair.le
      omega
  obtain ⟨pre, rest', h3, h4, h5⟩ := hs _ hr
  have h6 := h5 v c
  rw [h4.unique hy] at h6 h3
  rw [hv] at h6 h3
  rw [same hso h3, yields_cons] at h6
  obtain ⟨f1, f2, f3⟩ := h6
  obtain ⟨pre2, ps', k3, k4, k5⟩ := hG.seek _ hrt
  have k6 := k5 P.key y
  rw [k4.unique hps] at k6 k3
  rw [hvt] at k6 k3
  rw [same hG.sorted k3] at k6
  have k7 := seekSecond_cons k6
  have hmv : moveto P c1 c2 st = { st with m := P.M.next (P.M.hasNext (P.mvM v c st.m)).2, sec := some (seekSecond P y t).2, n := true, checked := true } := by
    unfold moveto
    rw [if_pos (by unfold Pair.le at hc; simp only at hc; rw [e1, e2]; rcases hc with hc | hc
                   · exact .inl hc
                   · exact .inr ⟨hc.1, .inr hc.2⟩)]
    simp [e1, e2, hv, f1, hns, ht, k7.1]
  rw [hmv]
  have h13 := checkedRun (P := P) hns ha (g := g) (c2 := none) (l := rest) (st := { st with m := P.M.next (P.M.hasNext (P.mvM v c st.m)).2, sec := some (seekSecond P y t).2, n := true, checked := true }) rfl rfl rfl h2 k7.2.2 f3
    (fun r hr => (hg r hr).1) (fun r hr => (hg r hr).2)
  simpa [f2, k7.2.1] using h13

/-- What holds of the main table is kept by the operations of the aggregated table. -/
theorem hasNext_keeps {P : Parts σ τ} {J : σ → Prop} (h1 : ∀ s, J s → J (P.M.hasNext s).2)
    (h2 : ∀ s, J s → J (P.M.next s)) {st : St σ τ} (h : J st.m) (hc : st.c2 = none) :
    J (hasNext P st).2.m ∧ (hasNext P st).2.c2 = none := by
  have ha := h1 _ h
  have hb := h2 _ ha
  unfold hasNext
  cases st.sec <;> simp only <;> repeat' split
  all_goals first | exact ⟨h, hc⟩ | exact ⟨ha, hc⟩ | exact ⟨hb, hc⟩

theorem moveto_keeps {P : Parts σ τ} {J : σ → Prop} (h1 : ∀ s, J s → J (P.M.hasNext s).2)
    (h2 : ∀ s, J s → J (P.M.next s)) (h3 : ∀ a b s, J s → J (P.mvM a b s)) {st : St σ τ} (h : J st.m)
    (hc : st.c2 = none) (c1 c2 : Int) :
    J (moveto P c1 c2 st).m ∧ (moveto P c1 c2 st).c2 = none := by
  have ha := h1 _ (h3 st.v1 (P.M.val st.m).2 _ h)
  have hb := h2 _ ha
  have ha' := h1 _ (h3 c1 0 _ h)
  have hb' := h2 _ ha'
  unfold moveto
  simp only
  repeat' split
  all_goals first | exact ⟨ha, hc⟩ | exact ⟨hb, hc⟩ | exact ⟨ha', hc⟩ | exact ⟨hb', hc⟩

/-- **C119 (marks).** A mark that is set before the first row is read: after any reads and seeks
and a reset all pairs are returned. The reset of the main table is right: from every state
after the mark (`J`) it makes the main table return all rows. -/
theorem C119_mark_partial {P : Parts σ τ} (hns : P.noSec = false) (ha : P.anyFirst = true)
    (markM resetM : σ → σ) {m : σ} {l : List Pair} {J : σ → Prop} (h0 : J (markM m))
    (h1 : ∀ s, J s → J (P.M.hasNext s).2) (h2 : ∀ s, J s → J (P.M.next s))
    (h3 : ∀ a b s, J s → J (P.mvM a b s)) (hm : ∀ s, J s → Yields P.M (resetM s) l)
    {g : Int → List Pair} (hg : ∀ r ∈ l, Yields P.S (P.opn none r.2) (g r.2) ∧ g r.2 ≠ [])
    (ops : List IOp) :
    Yields (itr P) (reset resetM (ops.foldl (runIOp (itr P) (moveto P)) (mark markM (init m)))) (pairs g l) := by
  have key : ∀ (ops : List IOp) (st : St σ τ), J st.m → st.c2 = none →
      J (ops.foldl (runIOp (itr P) (moveto P)) st).m ∧ (ops.foldl (runIOp (itr P) (moveto P)) st).c2 = none := by
    intro ops
    induction ops with
    | nil => exact fun st h hc => ⟨h, hc⟩
    | cons o ops ih =>
      intro st h hc
      cases o with
      | next => exact ih _ (hasNext_keeps h1 h2 h hc).1 (hasNext_keeps h1 h2 h hc).2
      | seek a b => exact ih _ (moveto_keeps h1 h2 h3 h hc a b).1 (moveto_keeps h1 h2 h3 h hc a b).2
  obtain ⟨hj, hc⟩ := key ops (mark markM (init m)) h0 rfl
  exact start (st := reset resetM _) hns rfl rfl hc (hm _ hj) (fun r hr => (hg r hr).1)
    (.inl ⟨ha, fun r hr => (hg r hr).2⟩)

/-- **C119, violated.** A mark that is set after a row is read: if pairs of the current first
value are left, they are returned without mark and reset, but not after mark and reset. -/
theorem C119_mark_violated {P : Parts σ τ} (hns : P.noSec = false) (ha : P.anyFirst = true)
    (markM resetM : σ → σ) {st : St σ τ} (h2 : st.c2 = none) (h3 : st.checked = false)
    {t : τ} (ht : st.sec = some t) {ps l : List Pair} (hps : Yields P.S t ps) (hne : ps ≠ [])
    (hl : Yields P.M st.m l) (hm : Yields P.M (resetM (markM st.m)) l) {g : Int → List Pair}
    (hg : ∀ r ∈ l, Yields P.S (P.opn none r.2) (g r.2) ∧ g r.2 ≠ []) :
    ∃ lost rest, lost ≠ [] ∧ Yields (itr P) st (lost ++ rest) ∧
      Yields (itr P) (reset resetM (mark markM st)) rest := by
  refine ⟨ps.map (fun y => ((P.M.val st.m).1, y.2)), pairs g l, by simpa using hne, ?_, ?_⟩
  · exact run hns ha l ps st t ht h3 h2 hps hl (fun r hr => (hg r hr).1) (fun r hr => (hg r hr).2)
  · exact start (st := reset resetM (mark markM st)) hns rfl rfl h2 hm (fun r hr => (hg r hr).1) (.inl ⟨ha, fun r hr => (hg r hr).2⟩)

/-! ## A concrete case: sorted lists as tables -/

/-- A list as a table: the current row and the rows that are left. -/
def listItr : Itr (Pair × List Pair) Pair where
  hasNext s := (!s.2.isEmpty, s)
  next s := match s.2 with
    | [] => s
    | x :: r => (x, r)
  val s := s.1

def listMv (c1 c2 : Int) (s : Pair × List Pair) : Pair × List Pair :=
  (s.1, (s.1 :: s.2).dropWhile fun p => !decide (Pair.le (c1, c2) p))

theorem list_yields (l : List Pair) : ∀ x, Yields listItr (x, l) l := by
  induction l with
  | nil => intro x; exact .done rfl
  | cons y l ih => intro x; rw [yields_cons]; exact ⟨rfl, rfl, ih y⟩

theorem dropWhile_sorted {l : List Pair} (h : SortedS l) (c1 c2 : Int) :
    l.dropWhile (fun p => !decide (Pair.le (c1, c2) p)) = l.filter fun p => decide (Pair.le (c1, c2) p) := by
  induction l with
  | nil => rfl
  | cons x l ih =>
    unfold SortedS at h
    rw [List.pairwise_cons] at h
    by_cases hx : Pair.le (c1, c2) x
    · rw [List.dropWhile_cons_of_neg (by simp [hx]), List.filter_cons_of_pos (by simpa using hx)]
      congr 1
      symm
      rw [List.filter_eq_self]
      intro y hy
      have := h.1 y hy
      simp only [decide_eq_true_eq]
      unfold Pair.le at hx ⊢
      unfold Pair.lt at this
      simp only at hx ⊢
      omega
    · rw [List.dropWhile_cons_of_pos (by simp [hx]), List.filter_cons_of_neg (by simpa using hx)]
      exact ih h.2

theorem list_seekOK {l : List Pair} (h : SortedS l) (x : Pair) : SeekOK listItr listMv (x, l) l := by
  intro s hr
  have key : ∃ pre, l = pre ++ s.1 :: s.2 := by
    have go : ∀ (s : Pair × List Pair) (pre q : List Pair), l = pre ++ q → s.2 = q → (listItr.hasNext s).1 = true →
        ∃ pre, l = pre ++ (listItr.next (listItr.hasNext s).2).1 :: (listItr.next (listItr.hasNext s).2).2 := by
      intro s pre q h1 h2 h3
      obtain ⟨a, r⟩ := s
      subst h2
      cases r with
      | nil => simp [listItr] at h3
      | cons b r => exact ⟨pre, h1⟩
    induction hr with
    | first h1 => exact go _ [] l rfl rfl h1
    | @next s _ h1 ih =>
      obtain ⟨pre, ih⟩ := ih
      exact go s (pre ++ [s.1]) s.2 (by simpa using ih) rfl h1
    | @seek s c1 c2 _ h1 ih =>
      obtain ⟨pre, ih⟩ := ih
      obtain ⟨w, hw⟩ := List.dropWhile_suffix (l := s.1 :: s.2) fun p => !decide (Pair.le (c1, c2) p)
      exact go (listMv c1 c2 s) (pre ++ w) _ (by rw [List.append_assoc]; exact ih.trans (congrArg _ hw.symm)) rfl h1
  obtain ⟨pre, hk⟩ := key
  refine ⟨pre, s.2, hk, list_yields _ _, fun c1 c2 => ?_⟩
  have hs : SortedS (s.1 :: s.2) := by
    rw [hk] at h
    exact (List.pairwise_append.1 h).2.1
  have he : listMv c1 c2 s = (s.1, (s.1 :: s.2).filter fun p => decide (Pair.le (c1, c2) p)) := by
    unfold listMv
    rw [dropWhile_sorted hs]
  rw [he]
  exact list_yields _ _

/-- Second tables with key 9: at coordinates 100, 200 and 300. -/
def exG (c : Int) : List Pair :=
  if c = 100 then [(9, 3), (9, 5)] else if c = 200 then [(9, 1), (9, 7)] else if c = 300 then [(9, 4)] else []

def exP (noSec anyFirst : Bool) : Parts (Pair × List Pair) (Pair × List Pair) where
  M := listItr
  mvM := listMv
  S := listItr
  mvS := listMv
  opn c2 c := ((0, 0), match c2 with
    | none => exG c
    | some v => (exG c).filter fun y => decide (y.2 = v))
  key := 9
  noSec := noSec
  anyFirst := anyFirst

/-- The main table: three first values with coordinates. -/
def exM : List Pair := [(2, 100), (4, 200), (8, 300)]

theorem exSecond (a b : Bool) (c : Int) : Second (exP a b) exG c := by
  have hk : ∀ y ∈ exG c, y.1 = 9 := by
    unfold exG
    intro y
    split
    · simp; rintro (rfl | rfl) <;> rfl
    · split
      · simp; rintro (rfl | rfl) <;> rfl
      · split
        · simp; rintro rfl; rfl
        · simp
  have hs : SortedS (exG c) := by
    unfold exG
    split
    · decide
    · split
      · decide
      · split <;> decide
  exact ⟨list_yields _ _, fun v => list_yields _ _, hk, hs, list_seekOK hs _,
    fun v => list_seekOK (hs.filter _) _⟩

/-- A scan of three first values. -/
example : Yields (itr (exP false true)) (init ((0, 0), exM))
    [(2, 3), (2, 5), (4, 1), (4, 7), (8, 4)] :=
  C119_pairs_partial rfl (list_yields _ _) (g := exG) (fun r _ => (exSecond false true r.2).rows)
    (.inl ⟨rfl, by decide⟩)

/-- The rows of one first value. -/
example : Yields (itr (exP false false)) (init ((0, 0), [(4, 200)])) [(4, 1), (4, 7)] :=
  C119_pairs_partial rfl (list_yields _ _) (g := exG) (fun r _ => (exSecond false false r.2).rows)
    (.inr ⟨rfl, by decide⟩)

/-- The first values with their counts. -/
example : Yields (itrCount (exP true true) fun t => t.2.length) (init ((0, 0), exM))
    [(2, 2), (4, 2), (8, 1)] :=
  C119_first rfl (fun t l h => by rw [(list_yields t.2 t.1).unique h])
    (list_yields _ _) (g := exG) (fun r _ => (exSecond true true r.2).rows)

example : strategyOf (coordinates 37 12 900000) = 37 ∧ fileOf (coordinates 37 12 900000) = (12 : Nat) ∧
    posOf (coordinates 37 12 900000) = (900000 : Nat) := C119_coordinates_partial (by omega) (by omega) (by omega)

example : posOf (coordinates 37 12 3000000000) < 0 ∧ fileOf (coordinates 37 40000 5) < 0 :=
  ⟨C119_coordinates_violated.1 (by omega) (by omega) (by omega), C119_coordinates_violated.2 (by omega) (by omega) (by omega)⟩

/-- A pair that is there, and one that is not. -/
example : Yields (itr (exP false false)) (get (exP false false) (fun _ t => t) ((0, 0), [(4, 200)]) 4 7) [(4, 7)] :=
  C119_lookup_partial (v2 := 7) rfl rfl _ (by decide) (.inr ⟨200, by decide, rfl⟩) (list_yields _ _)
    (list_seekOK (by decide) _) (g := exG) (fun r _ => exSecond _ _ _)

example : Yields (itr (exP false false)) (get (exP false false) (fun _ t => t) ((0, 0), [(4, 200)]) 4 3) [] :=
  C119_lookup_partial (v2 := 3) rfl rfl _ (by decide) (.inr ⟨200, by decide, rfl⟩) (list_yields _ _)
    (list_seekOK (by decide) _) (g := exG) (fun r _ => exSecond _ _ _)

/-- The pair (4, 7) is there, but a lookup of 7 finds nothing. -/
example : Yields (itr (exP false true)) (get (exP false true) (fun _ t => t) ((0, 0), exM) (-1) 7) [] :=
  (C119_lookup_violated (w := 4) rfl _ (by decide) (by decide) (list_yields _ _)
    (list_seekOK (by decide) _) (exSecond _ _ _) (by decide) (by decide) (by decide)).2

/-- The state after the first pair is read. -/
def exSt : St (Pair × List Pair) (Pair × List Pair) :=
  next (exP false true) (hasNext (exP false true) (init ((0, 0), exM))).2

theorem exReached : Reached listItr listMv ((0, 0), exM) exSt.m := .first rfl

/-- A seek to (4, 2) after (2, 3). -/
example : Yields (itr (exP false true)) (moveto (exP false true) 4 2 exSt) [(4, 7), (8, 4)] :=
  C119_seek_partial (g := exG) (rest := [(4, 200), (8, 300)]) (c2 := 2) rfl rfl (list_seekOK (by decide) _) exReached rfl rfl
    (list_yields _ _) (by decide)
    (fun r hr => ⟨exSecond _ _ _, by
      rcases List.mem_cons.1 hr with rfl | hr
      · decide
      · rw [List.mem_singleton.1 hr]; decide, by
      rcases List.mem_cons.1 hr with rfl | hr
      · decide
      · rw [List.mem_singleton.1 hr]; decide⟩)
    (by decide) (.inl ⟨7, by decide, by decide⟩)

/-- A seek to (3, 9) ends the rows, although (4, 1), (4, 7) and (8, 4) follow. -/
example : Yields (itr (exP false true)) (moveto (exP false true) 3 9 exSt) [] :=
  (C119_seek_violated (g := exG) (v := 4) (c := 200) (l := [(8, 300)]) (c2 := 9) (y := (9, 1)) rfl rfl (list_seekOK (by decide) _) exReached rfl rfl
    (list_yields _ _) (by decide)
    (fun r hr => ⟨exSecond _ _ _, by
      rcases List.mem_cons.1 hr with rfl | hr
      · decide
      · rw [List.mem_singleton.1 hr]; decide, by
      rcases List.mem_cons.1 hr with rfl | hr
      · decide
      · rw [List.mem_singleton.1 hr]; decide⟩)
    (by decide) (by decide) (by decide) (by decide)).2.2.2 (by decide)

/-- A seek to (2, 1) after (2, 3) returns (2, 3) again. -/
example : Yields (itr (exP false true)) (moveto (exP false true) 2 1 exSt) [(2, 3), (2, 5), (4, 1), (4, 7), (8, 4)] :=
  C119_back (P := exP false true) (st := exSt) (t := ((9, 3), [(9, 5)])) (g := exG) (v := 2) (c := 100) (y := 3) (rest := [(4, 200), (8, 300)]) (ps := [(9, 5)]) rfl rfl
    (list_seekOK (l := exM) (by decide) _) (by decide) exReached rfl rfl rfl (exSecond _ _ _) (.first rfl) rfl rfl rfl
    (list_yields [(4, 200), (8, 300)] (2, 100)) (list_yields [(9, 5)] (9, 3))
    (fun r hr => ⟨(exSecond false true _).rows, by
      rcases List.mem_cons.1 hr with rfl | hr
      · decide
      · rw [List.mem_singleton.1 hr]; decide⟩)
    (by decide)

/-- With the second column ignored, a seek to (3, 9) after 2. -/
example : Yields (itrCount (exP true true) fun t => t.2.length)
    (moveto (exP true true) 3 9 (next (exP true true) (hasNext (exP true true) (init ((0, 0), exM))).2)) [(4, 2), (8, 1)] :=
  C119_first_seek (P := exP true true) (st := next (exP true true) (hasNext (exP true true) (init ((0, 0), exM))).2) (g := exG) (m0 := ((0, 0), exM)) (rows := exM) (rest := [(4, 200), (8, 300)]) rfl
    (fun t l h => by rw [(list_yields t.2 t.1).unique h]) (list_seekOK (by decide) _) (by decide) (.first rfl) rfl rfl rfl
    (list_yields [(4, 200), (8, 300)] (2, 100)) (fun r hr => ⟨(exSecond true true _).rows, by
      revert r
      decide⟩) 3 9

/-- A reset to the start, after a read and a seek; the main table keeps what was marked. -/
example : Yields (itr (exP false true)) (reset (fun _ => ((0, 0), exM))
      ([IOp.next, IOp.seek 4 2].foldl (runIOp (itr (exP false true)) (moveto (exP false true))) (mark id (init ((0, 0), exM)))))
    [(2, 3), (2, 5), (4, 1), (4, 7), (8, 4)] :=
  C119_mark_partial (g := exG) (J := fun _ => True) rfl rfl id (fun _ => ((0, 0), exM)) trivial (fun _ _ => trivial)
    (fun _ _ => trivial) (fun _ _ _ _ => trivial) (fun _ _ => list_yields exM _)
    (fun r hr => ⟨(exSecond false true _).rows, by
      revert r
      decide⟩) _

/-- A mark after (2, 3) and a reset lose (2, 5). -/
example : ∃ lost rest, lost ≠ [] ∧ Yields (itr (exP false true)) exSt (lost ++ rest) ∧
    Yields (itr (exP false true)) (reset id (mark id exSt)) rest :=
  C119_mark_violated (g := exG) rfl rfl id id rfl rfl rfl (list_yields [(9, 5)] (9, 3)) (by decide)
    (list_yields [(4, 200), (8, 300)] (2, 100)) (list_yields _ _)
    (fun r hr => ⟨(exSecond false true _).rows, by
      revert r
      decide⟩)

end Trident.Aggr
