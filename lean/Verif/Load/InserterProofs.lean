import Verif.Load.Inserter
import Verif.Load.StoreProofs
/-! Helper proofs for the inserter (no property statements here). -/
namespace Trident.Load
open Strat

variable {P : Params}

/-- The strategy of a table. -/
def Params.strat (P : Params) (ps : List (Nat × Nat)) : Nat :=
  match P.fixed with
  | some f => f
  | none => determine ps P.ncc P.big

/-- The table of a key. -/
def Params.tbl (P : Params) (k : Nat) (ps : List (Nat × Nat)) : Tbl :=
  ⟨k, P.strat ps, tableBytes P.thr (P.strat ps) ps⟩

/-- The key gets no table. -/
def Params.skips (P : Params) (ps : List (Nat × Nat)) : Prop :=
  P.perm ≥ 3 ∧ P.canSkip = true ∧ ps.length < P.skipThr

instance (ps) : Decidable (P.skips ps) := by unfold Params.skips; infer_instance

/-- Store and tree after a key. -/
def Params.addKey (P : Params) (x : Store × List TreeEl) (g : Nat × List (Nat × Nat)) : Store × List TreeEl :=
  if P.skips g.2 then x
  else
    let r := x.1.add P.maxSize (P.tbl g.1 g.2)
    (r.1, x.2 ++ [⟨g.1, g.2.length, r.2.1, r.2.2, P.strat g.2⟩])

theorem determine_take {vs ps : List (Nat × Nat)} (h1 : THRESHOLD ≤ vs.length) (h2 : THRESHOLD ≤ ps.length) :
    P.strat vs = P.strat ps := by
  unfold Params.strat
  cases P.fixed with
  | some f => rfl
  | none =>
    have e1 : ¬ vs.length < THRESHOLD := by omega
    have e2 : ¬ ps.length < THRESHOLD := by omega
    simp only [determine, if_neg e1, if_neg e2]

/-- The inserter has received the pairs `ps` of key `k`, after leaving the store and tree `x` behind. -/
def Pending (P : Params) (s : Ins) (x : Store × List TreeEl) (k : Nat) (ps : List (Nat × Nat)) : Prop :=
  s.t1 = k ∧ s.n = ps.length ∧ s.tree = x.2 ∧
    ((ps.length ≤ THRESHOLD ∧ s.values = ps ∧ s.store = x.1) ∨
     (THRESHOLD < ps.length ∧ s.skip = false ∧
      s.store = (x.1.startAppend P.maxSize k (P.strat ps)).1 ∧
      s.table = some (P.strat ps, (x.1.startAppend P.maxSize k (P.strat ps)).2.1,
        (x.1.startAppend P.maxSize k (P.strat ps)).2.2, ps)))

theorem storeValues_eq {s : Ins} {ps : List (Nat × Nat)} {k : Nat} (h1 : s.t1 = k) (hsk : ¬ P.skips ps) :
    s.storeValues P ps = { s with
      skip := false
      store := (s.store.startAppend P.maxSize k (P.strat ps)).1
      table := some (P.strat ps, (s.store.startAppend P.maxSize k (P.strat ps)).2.1,
        (s.store.startAppend P.maxSize k (P.strat ps)).2.2, ps)
      appended := s.appended + ps.length } := by
  unfold Ins.storeValues
  unfold Params.skips at hsk
  rw [if_neg hsk, h1]
  rfl

theorem closeTable_eq {s : Ins} {strat file mark ps} (hs : s.skip = false) (ht : s.table = some (strat, file, mark, ps)) :
    s.closeTable P = { s with store := s.store.write (tableBytes P.thr strat ps), table := none,
                              tree := s.tree ++ [⟨s.t1.toNat, s.n, file, mark, strat⟩] } := by
  unfold Ins.closeTable
  rw [hs, if_neg (by decide), ht]

theorem Pending.write {s x k ps} (h : Pending P s x k ps) (hskip : P.skipThr < THRESHOLD) :
    (s.writeCurrent P).store = (P.addKey x (k, ps)).1 ∧ (s.writeCurrent P).tree = (P.addKey x (k, ps)).2 := by
  obtain ⟨h1, h2, h3, h4⟩ := h
  unfold Ins.writeCurrent
  rcases h4 with ⟨hl, hv, hs⟩ | ⟨hl, hsk, hs, ht⟩
  · rw [← h2] at hl
    rw [if_pos hl, hv]
    by_cases hsk : P.skips ps
    · have e : s.storeValues P ps = { s with skip := true } := by
        unfold Ins.storeValues; exact if_pos hsk
      rw [e, Params.addKey, if_pos hsk, Ins.closeTable, if_pos rfl]
      exact ⟨hs, h3⟩
    · rw [storeValues_eq h1 hsk, closeTable_eq rfl rfl, Params.addKey, if_neg hsk, hs, h1, h2, h3]
      exact ⟨rfl, rfl⟩
  · have hsk' : ¬ P.skips ps := by rintro ⟨-, -, h⟩; omega
    have hl' : ¬ s.n ≤ THRESHOLD := by omega
    rw [if_neg hl', closeTable_eq hsk ht, Params.addKey, if_neg hsk', hs, h1, h2, h3]
    exact ⟨rfl, rfl⟩

theorem Pending.insert {s x k ps p} (h : Pending P s x k ps) (hskip : P.skipThr < THRESHOLD) :
    Pending P (s.insert P (k, p)) x k (ps ++ [p]) := by
  obtain ⟨h1, h2, h3, h4⟩ := h
  have hlen : (ps ++ [p]).length = ps.length + 1 := by simp
  have e0 : s.insert P (k, p) = s.addPair P p := by
    unfold Ins.insert Ins.newKey
    rw [if_neg (fun h => h h1.symm)]
  rw [e0]
  unfold Ins.addPair
  rcases h4 with ⟨hl, hv, hs⟩ | ⟨hl, hsk, hs, ht⟩
  · by_cases hn : s.n < THRESHOLD
    · rw [if_pos hn]
      exact ⟨h1, by simp [h2], h3, .inl ⟨by omega, by simp [hv], hs⟩⟩
    · have hn' : s.n = THRESHOLD := by omega
      rw [if_neg hn, if_pos hn', hv]
      have hsk' : ¬ P.skips ps := by rintro ⟨-, -, h⟩; omega
      have est : P.strat ps = P.strat (ps ++ [p]) := determine_take (by omega) (by omega)
      rw [storeValues_eq (k := k) (by exact h1) hsk', est]
      refine ⟨h1, by simp [h2, Ins.appendPair], h3, .inr ⟨by omega, rfl, ?_, ?_⟩⟩
      · show (s.store.startAppend _ _ _).1 = _
        rw [hs]
      · simp only [Ins.appendPair, hs, Option.map_some]
  · have est : P.strat ps = P.strat (ps ++ [p]) := determine_take (by omega) (by omega)
    have hn1 : ¬ s.n < THRESHOLD := by omega
    have hn2 : ¬ s.n = THRESHOLD := by omega
    rw [if_neg hn1, if_neg hn2]
    refine ⟨h1, by simp [h2, Ins.appendPair], h3, .inr ⟨by omega, hsk, ?_, ?_⟩⟩
    · rw [← est]; exact hs
    · rw [← est]; simp only [Ins.appendPair, ht, Option.map_some]

theorem threshold_pos : 0 < THRESHOLD := by decide

theorem Pending.insert_new {s x k ps k' p} (h : Pending P s x k ps) (hk : k' ≠ k) (hskip : P.skipThr < THRESHOLD) :
    Pending P (s.insert P (k', p)) (P.addKey x (k, ps)) k' [p] := by
  have hw := h.write hskip
  have h1 := h.1
  have c1 : (k' : Int) ≠ s.t1 := by omega
  have c2 : s.t1 ≠ -1 := by omega
  have := threshold_pos
  unfold Ins.insert Ins.newKey
  rw [if_pos c1, if_pos c2, Ins.addPair, if_pos this]
  exact ⟨rfl, rfl, hw.2, .inl ⟨by simp; omega, rfl, hw.1⟩⟩

theorem pending_first {s : Ins} {k p} (ht : s.t1 = -1) :
    Pending P (s.insert P (k, p)) (s.store, s.tree) k [p] := by
  have c1 : (k : Int) ≠ s.t1 := by omega
  have c2 : ¬ s.t1 ≠ -1 := by omega
  have := threshold_pos
  unfold Ins.insert Ins.newKey
  rw [if_pos c1, if_neg c2, Ins.addPair, if_pos this]
  exact ⟨rfl, rfl, rfl, .inl ⟨by simp; omega, rfl, rfl⟩⟩

theorem Pending.insert_pairs {s x k ps} (h : Pending P s x k ps) (hskip : P.skipThr < THRESHOLD) (qs : List (Nat × Nat)) :
    Pending P ((qs.map (k, ·)).foldl (Ins.insert P) s) x k (ps ++ qs) := by
  induction qs generalizing s ps with
  | nil => simpa using h
  | cons q qs ih =>
    have := ih (h.insert (p := q) hskip)
    simpa using this

/-- Rows of groups. -/
def rowsOf (gs : List (Nat × List (Nat × Nat))) : List (Nat × Nat × Nat) := gs.flatMap fun g => g.2.map (g.1, ·)

theorem Pending.insert_groups {s x k ps} (h : Pending P s x k ps) (hskip : P.skipThr < THRESHOLD)
    {gs : List (Nat × List (Nat × Nat))} (hne : ∀ g ∈ gs, g.2 ≠ []) (hd : ((k, ps) :: gs).Pairwise fun a b => a.1 ≠ b.1) :
    ∃ x' k' ps', Pending P ((rowsOf gs).foldl (Ins.insert P) s) x' k' ps' ∧
      P.addKey x' (k', ps') = gs.foldl P.addKey (P.addKey x (k, ps)) := by
  induction gs generalizing s x k ps with
  | nil => exact ⟨x, k, ps, h, rfl⟩
  | cons g gs ih =>
    obtain ⟨k', qs⟩ := g
    cases qs with
    | nil => exact absurd rfl (hne (k', []) (by simp))
    | cons q qs =>
      rw [List.pairwise_cons] at hd
      have h1 := h.insert_new (k' := k') (p := q) (fun e => hd.1 _ List.mem_cons_self e.symm) hskip
      have h2 := h1.insert_pairs hskip qs
      obtain ⟨x', k'', ps', h3, h4⟩ := ih h2 (fun g hg => hne g (by simp [hg])) hd.2
      refine ⟨x', k'', ps', ?_, ?_⟩
      · rw [rowsOf, List.flatMap_cons, List.foldl_append, List.map_cons, List.foldl_cons]
        exact h3
      · rw [h4]; rfl

theorem foldl_insert_groups (hskip : P.skipThr < THRESHOLD) {gs : List (Nat × List (Nat × Nat))}
    (hne : ∀ g ∈ gs, g.2 ≠ []) (hd : gs.Pairwise fun a b => a.1 ≠ b.1) :
    let s := ((rowsOf gs).foldl (Ins.insert P) {}).flush P
    (s.store, s.tree) = gs.foldl P.addKey ({}, []) := by
  cases gs with
  | nil => rfl
  | cons g gs =>
    obtain ⟨k, qs⟩ := g
    cases qs with
    | nil => exact absurd rfl (hne (k, []) (by simp))
    | cons q qs =>
      have h1 : Pending P (({} : Ins).insert P (k, q)) ({}, []) k [q] := pending_first rfl
      have h2 := h1.insert_pairs hskip qs
      obtain ⟨x', k', ps', h3, h4⟩ := h2.insert_groups hskip (fun g hg => hne g (by simp [hg])) hd
      have hw := h3.write hskip
      rw [rowsOf, List.flatMap_cons, List.foldl_append, List.map_cons, List.foldl_cons]
      change (fun s : Ins => (s.store, s.tree)) (Ins.flush P (List.foldl (Ins.insert P) (List.foldl (Ins.insert P)
        (({} : Ins).insert P (k, q)) (qs.map (k, ·))) (rowsOf gs))) = _
      simp only [Ins.flush]
      rw [if_pos (by rw [h3.1]; omega), hw.1, hw.2, h4]
      rfl

/-! ## Dropping duplicates -/

/-- `rows` without adjacent repetitions. -/
def squeeze (prev : Option (Nat × Nat × Nat)) : List (Nat × Nat × Nat) → List (Nat × Nat × Nat)
  | [] => []
  | r :: rs => if prev ≠ some r then r :: squeeze (some r) rs else squeeze prev rs

theorem loadRows_eq (rows : List (Nat × Nat × Nat)) (prev s) :
    (rows.foldl (loadRow P) (prev, s)).2 = (squeeze prev rows).foldl (Ins.insert P) s := by
  induction rows generalizing prev s with
  | nil => rfl
  | cons r rows ih =>
    rw [List.foldl_cons, loadRow, squeeze]
    by_cases h : prev ≠ some r
    · rw [if_pos h, if_pos h, List.foldl_cons]; exact ih _ _
    · rw [if_neg h, if_neg h]; exact ih _ _

/-- Lexicographic order on rows. -/
def rowLe (a b : Nat × Nat × Nat) : Prop :=
  a.1 < b.1 ∨ (a.1 = b.1 ∧ (a.2.1 < b.2.1 ∨ (a.2.1 = b.2.1 ∧ a.2.2 ≤ b.2.2)))

/-- Strict lexicographic order on rows. -/
def rowLt (a b : Nat × Nat × Nat) : Prop :=
  a.1 < b.1 ∨ (a.1 = b.1 ∧ (a.2.1 < b.2.1 ∨ (a.2.1 = b.2.1 ∧ a.2.2 < b.2.2)))

theorem rowLe.lt_of_ne {a b} (h : rowLe a b) (hne : a ≠ b) : rowLt a b := by
  obtain ⟨a1, a2, a3⟩ := a
  obtain ⟨b1, b2, b3⟩ := b
  simp only [rowLe, rowLt] at *
  rcases h with h | ⟨rfl, h | ⟨rfl, h⟩⟩
  · exact .inl h
  · exact .inr ⟨rfl, .inl h⟩
  · refine .inr ⟨rfl, .inr ⟨rfl, ?_⟩⟩
    rcases Nat.lt_or_eq_of_le h with h | rfl
    · exact h
    · exact absurd rfl hne

theorem rowLt.le_trans {a b c} (h : rowLt a b) (h' : rowLe b c) : rowLt a c := by
  simp only [rowLe, rowLt] at *; omega

theorem squeeze_spec {rows : List (Nat × Nat × Nat)} {prev} (h : rows.Pairwise rowLe)
    (hp : ∀ q ∈ prev, ∀ r ∈ rows, rowLe q r) :
    (squeeze prev rows).Pairwise rowLt ∧ (∀ q ∈ prev, ∀ r ∈ squeeze prev rows, rowLt q r) ∧
      ∀ r, r ∈ squeeze prev rows ↔ r ∈ rows ∧ prev ≠ some r := by
  induction rows generalizing prev with
  | nil => exact ⟨.nil, fun _ _ _ h => absurd h List.not_mem_nil, fun r => by simp [squeeze]⟩
  | cons r rows ih =>
    rw [List.pairwise_cons] at h
    rw [squeeze]
    by_cases hr : prev ≠ some r
    · rw [if_pos hr]
      obtain ⟨a, b, c⟩ := ih (prev := some r) h.2 (fun q hq x hx => by
        simp only [Option.mem_def, Option.some.injEq] at hq; subst hq; exact h.1 x hx)
      have hpr : ∀ q ∈ prev, rowLt q r := fun q hq =>
        (hp q hq r (by simp)).lt_of_ne fun e => hr (by rw [← e]; exact hq)
      refine ⟨List.pairwise_cons.2 ⟨b r rfl, a⟩, ?_, ?_⟩
      · intro q hq x hx
        rcases List.mem_cons.1 hx with rfl | hx
        · exact hpr q hq
        · exact (hpr q hq).le_trans (h.1 x ((c x).1 hx).1)
      · intro x
        rw [List.mem_cons, List.mem_cons, c]
        constructor
        · rintro (rfl | ⟨hx, hn⟩)
          · exact ⟨.inl rfl, hr⟩
          · refine ⟨.inr hx, fun e => ?_⟩
            have := (hpr x e).le_trans (h.1 x hx)
            simp only [rowLt] at this; omega
        · rintro ⟨rfl | hx, hn⟩
          · exact .inl rfl
          · by_cases hxr : x = r
            · exact .inl hxr
            · exact .inr ⟨hx, fun e => hxr (Option.some.inj e).symm⟩
    · rw [if_neg hr]
      have hr' : prev = some r := by simpa using hr
      obtain ⟨a, b, c⟩ := ih (prev := prev) h.2 (fun q hq x hx => hp q hq x (by simp [hx]))
      refine ⟨a, b, fun x => ?_⟩
      rw [c, List.mem_cons]
      constructor
      · rintro ⟨hx, hn⟩; exact ⟨.inr hx, hn⟩
      · rintro ⟨rfl | hx, hn⟩
        · exact absurd hr' hn
        · exact ⟨hx, hn⟩

/-! ## Grouping -/

/-- The groups of rows with equal key. -/
def groupRows : List (Nat × Nat × Nat) → List (Nat × List (Nat × Nat))
  | [] => []
  | r :: rs =>
    match groupRows rs with
    | g :: gs => if g.1 = r.1 then (r.1, r.2 :: g.2) :: gs else (r.1, [r.2]) :: g :: gs
    | [] => [(r.1, [r.2])]

theorem rowsOf_groupRows (rows : List (Nat × Nat × Nat)) : rowsOf (groupRows rows) = rows := by
  induction rows with
  | nil => rfl
  | cons r rows ih =>
    rw [groupRows]
    cases h : groupRows rows with
    | nil => rw [h] at ih; simp [rowsOf] at ih ⊢; exact ih
    | cons g gs =>
      rw [h] at ih
      by_cases hg : g.1 = r.1
      · simp only [if_pos hg, rowsOf, List.flatMap_cons, List.map_cons, List.cons_append]
        rw [← ih, rowsOf, List.flatMap_cons, hg]
      · simp only [if_neg hg, rowsOf, List.flatMap_cons, List.map_cons, List.map_nil, List.cons_append, List.nil_append]
        rw [← ih, rowsOf, List.flatMap_cons]

theorem groupRows_ne (rows : List (Nat × Nat × Nat)) : ∀ g ∈ groupRows rows, g.2 ≠ [] := by
  induction rows with
  | nil => simp [groupRows]
  | cons r rows ih =>
    rw [groupRows]
    cases h : groupRows rows with
    | nil => simp
    | cons g gs =>
      rw [h] at ih
      by_cases hg : g.1 = r.1
      · simp only [if_pos hg, List.mem_cons]
        rintro x (rfl | hx)
        · simp
        · exact ih x (by simp [hx])
      · simp only [if_neg hg]
        intro x hx
        rcases List.mem_cons.1 hx with rfl | hx
        · simp
        · exact ih x hx

theorem groupRows_keys (rows : List (Nat × Nat × Nat)) : ∀ g ∈ groupRows rows, g.1 ∈ rows.map (·.1) := by
  intro g hg
  obtain ⟨k, ps⟩ := g
  cases ps with
  | nil => exact absurd rfl (groupRows_ne rows _ hg)
  | cons p ps =>
    have : (k, p) ∈ rowsOf (groupRows rows) := by
      rw [rowsOf, List.mem_flatMap]; exact ⟨_, hg, by simp⟩
    rw [rowsOf_groupRows] at this
    exact List.mem_map.2 ⟨_, this, rfl⟩

theorem groupRows_sorted {rows : List (Nat × Nat × Nat)} (h : rows.Pairwise rowLt) :
    ((groupRows rows).map (·.1)).Pairwise (· < ·) ∧ ∀ g ∈ groupRows rows, SortedS (toI g.2) := by
  induction rows with
  | nil => exact ⟨.nil, by simp [groupRows]⟩
  | cons r rows ih =>
    rw [List.pairwise_cons] at h
    obtain ⟨i1, i2⟩ := ih h.2
    have hle : ∀ g ∈ groupRows rows, r.1 ≤ g.1 := by
      intro g hg
      obtain ⟨x, hx, e⟩ := List.mem_map.1 (groupRows_keys rows g hg)
      have := h.1 x hx
      simp only [rowLt] at this
      omega
    have hmem : ∀ g ∈ groupRows rows, ∀ p ∈ g.2, (g.1, p) ∈ rows := by
      intro g hg p hp
      have : (g.1, p) ∈ rowsOf (groupRows rows) := by
        rw [rowsOf, List.mem_flatMap]; exact ⟨_, hg, List.mem_map.2 ⟨p, hp, rfl⟩⟩
      rwa [rowsOf_groupRows] at this
    rw [groupRows]
    cases hgr : groupRows rows with
    | nil => exact ⟨by simp, by simp [SortedS, toI]⟩
    | cons g gs =>
      rw [hgr] at i1 i2 hle hmem
      rw [List.map_cons, List.pairwise_cons] at i1
      by_cases hg : g.1 = r.1
      · simp only [if_pos hg]
        refine ⟨?_, ?_⟩
        · rw [List.map_cons, List.pairwise_cons, ← hg]; exact i1
        · intro x hx
          rcases List.mem_cons.1 hx with rfl | hx
          · rw [toI, List.map_cons, SortedS, List.pairwise_cons]
            refine ⟨?_, i2 g (by simp)⟩
            intro p hp
            obtain ⟨q, hq, rfl⟩ := List.mem_map.1 hp
            have := h.1 _ (hmem g (by simp) q hq)
            simp only [rowLt, hg] at this
            simp only [Pair.lt]
            omega
          · exact i2 x (by simp [hx])
      · simp only [if_neg hg]
        have hlt : r.1 < g.1 := by have := hle g (by simp); omega
        refine ⟨?_, ?_⟩
        · rw [List.map_cons, List.pairwise_cons]
          refine ⟨?_, by rw [List.map_cons, List.pairwise_cons]; exact i1⟩
          intro k hk
          rw [List.map_cons, List.mem_cons] at hk
          rcases hk with rfl | hk
          · exact hlt
          · have := i1.1 k hk; omega
        · intro x hx
          rcases List.mem_cons.1 hx with rfl | hx
          · simp [SortedS, toI]
          · exact i2 x hx

theorem mem_rowsOf_iff {gs : List (Nat × List (Nat × Nat))} (hs : (gs.map (·.1)).Pairwise (· < ·)) {g} (hg : g ∈ gs) (p : Nat × Nat) :
    (g.1, p) ∈ rowsOf gs ↔ p ∈ g.2 := by
  rw [rowsOf, List.mem_flatMap]
  constructor
  · rintro ⟨g', hg', h⟩
    obtain ⟨q, hq, e⟩ := List.mem_map.1 h
    simp only [Prod.mk.injEq] at e
    obtain ⟨e1, rfl⟩ := e
    have : g' = g := by
      induction gs with
      | nil => simp at hg
      | cons a gs ih =>
        rw [List.map_cons, List.pairwise_cons] at hs
        rcases List.mem_cons.1 hg with rfl | hg1 <;> rcases List.mem_cons.1 hg' with rfl | hg2
        · rfl
        · have := hs.1 _ (List.mem_map.2 ⟨g', hg2, rfl⟩); omega
        · have := hs.1 _ (List.mem_map.2 ⟨g, hg1, rfl⟩); omega
        · exact ih hs.2 hg1 hg2
    rw [← this]; exact hq
  · intro h
    exact ⟨g, hg, List.mem_map.2 ⟨p, h, rfl⟩⟩

/-! ## The result of a load -/

/-- `addKey` on all groups. -/
theorem foldl_addKey (gs : List (Nat × List (Nat × Nat))) : ∀ {x : Store × List TreeEl},
    let kept := gs.filter fun g => ¬ P.skips g.2
    let r := x.1.addAll P.maxSize (kept.map fun g => P.tbl g.1 g.2)
    (gs.foldl P.addKey x).1 = r.1 ∧
      (gs.foldl P.addKey x).2 = x.2 ++ (kept.zip r.2).map fun q => ⟨q.1.1, q.1.2.length, q.2.1, q.2.2, P.strat q.1.2⟩ := by
  induction gs with
  | nil => intro x; simp [Store.addAll]
  | cons g gs ih =>
    intro x
    rw [List.foldl_cons]
    by_cases hs : P.skips g.2
    · rw [List.filter_cons_of_neg (by simp [hs])]
      have e : P.addKey x g = x := by rw [Params.addKey, if_pos hs]
      rw [e]
      exact ih
    · rw [List.filter_cons_of_pos (by simp [hs])]
      have := ih (x := P.addKey x g)
      simp only at this ⊢
      rw [this.1, this.2]
      have e : P.addKey x g = ((x.1.add P.maxSize (P.tbl g.1 g.2)).1, x.2 ++
          [⟨g.1, g.2.length, (x.1.add P.maxSize (P.tbl g.1 g.2)).2.1, (x.1.add P.maxSize (P.tbl g.1 g.2)).2.2, P.strat g.2⟩]) := by
        rw [Params.addKey, if_neg hs]
      rw [e]
      simp [Store.addAll]

theorem loadPerm_eq (hskip : P.skipThr < THRESHOLD) {rows : List (Nat × Nat × Nat)} (hr : rows.Pairwise rowLe) :
    ((loadPerm P rows).store, (loadPerm P rows).tree) = (groupRows (squeeze none rows)).foldl P.addKey ({}, []) := by
  have hq := squeeze_spec (prev := none) hr (by simp)
  have hg := groupRows_sorted hq.1
  have := foldl_insert_groups hskip (gs := groupRows (squeeze none rows)) (groupRows_ne _)
    ((List.pairwise_map.1 hg.1).imp fun h => by omega)
  unfold loadPerm
  rw [loadRows_eq]
  rw [rowsOf_groupRows] at this
  exact this

end Trident.Load
