import Verif.Update.Query
import Verif.Update.MergeProofs
import Verif.Update.Diff3Build
import Verif.Iter.CompositeScanProofs
import Verif.Props.Query
import Verif.Props.Merge
/-! Helper proofs for queries on a graph with updates (no property statements here). -/
namespace Trident
open Load Strat

/-! ## `hasNext` twice -/

/-- Calling `hasNext` a second time changes nothing. -/
def Itr.Idem {σ α : Type} (I : Itr σ α) : Prop := ∀ s, I.hasNext (I.hasNext s).2 = I.hasNext s

theorem idem_pure {σ α : Type} {I : Itr σ α} (h : ∀ s, (I.hasNext s).2 = s) : I.Idem := by
  intro s; rw [h]

theorem tab_idem (m : Mem) : (Strat.Tab.itr m).Idem := idem_pure fun s => by cases s <;> rfl

theorem arr_idem (l : List (Nat × Nat)) : (Arr.itr l).Idem := by
  intro s
  show Arr.hasNext l (Arr.hasNext l s).2 = Arr.hasNext l s
  unfold Arr.hasNext
  by_cases h : s.hnc = true
  · simp only [h, if_true]
  · simp [h]

theorem composite_idem {σ : Type} (C : Itr σ Pair) (sort) : (Composite.itr C sort).Idem := by
  intro s
  show Composite.hasNext C (Composite.hasNext C s).2 = Composite.hasNext C s
  unfold Composite.hasNext
  by_cases h : s.hnc = true
  · simp only [h, if_true]
  · simp [h]

theorem rm_idem {σ τ α : Type} (M : Itr σ α) (R : Itr τ α) (mode fuel) : (Rm.itr M R mode fuel).Idem := by
  intro s
  show Rm.hasNext M R mode fuel (Rm.hasNext M R mode fuel s).2 = Rm.hasNext M R mode fuel s
  unfold Rm.hasNext
  by_cases h : s.hnc = true
  · simp only [h, if_true]
  · simp [h]

theorem cscan_idem {σ : Type} (C : Itr σ Row3) (sort) : (CScan.itr C sort).Idem := by
  intro s
  show CScan.hasNext sort (CScan.hasNext sort s).2 = CScan.hasNext sort s
  unfold CScan.hasNext
  by_cases h : s.hnc = true
  · simp only [h, if_true]
  · simp [h]

theorem scan_moveKey_hnc (s : Scan.St) : (Scan.moveKey s).2.hnc = true ∧ (Scan.moveKey s).2.hn = (Scan.moveKey s).1 := by
  unfold Scan.moveKey
  split
  · split <;> exact ⟨rfl, rfl⟩
  · split
    · split <;> exact ⟨rfl, rfl⟩
    · exact ⟨rfl, rfl⟩

theorem scan_idem (kb : KB) (E : Env) : (Scan.itr kb E).Idem := by
  intro s
  show Scan.hasNext kb (Scan.hasNext kb s).2 = Scan.hasNext kb s
  have hc : ∀ s' : Scan.St, s'.hnc = true → Scan.hasNext kb s' = (s'.hn, s') := by
    intro s' h; unfold Scan.hasNext; rw [if_pos h]
  by_cases h : s.hnc = true
  · rw [hc s h, hc s h]
  · have : (Scan.hasNext kb s).2.hnc = true ∧ (Scan.hasNext kb s).2.hn = (Scan.hasNext kb s).1 := by
      unfold Scan.hasNext
      rw [if_neg h]
      split
      · simp only
        split
        · exact ⟨rfl, rfl⟩
        · exact scan_moveKey_hnc _
      · exact scan_moveKey_hnc _
    rw [hc _ this.1, this.2]

theorem diffScan_moveKey_hnc (m base) (s : DiffScan.St) : (DiffScan.moveKey m base s).2.hnc = true ∧ (DiffScan.moveKey m base s).2.hn = (DiffScan.moveKey m base s).1 := by
  unfold DiffScan.moveKey
  split
  · exact ⟨rfl, rfl⟩
  · split <;> exact ⟨rfl, rfl⟩

theorem diffScan_idem (m base) : (DiffScan.itr m base).Idem := by
  intro s
  show DiffScan.hasNext m base (DiffScan.hasNext m base s).2 = DiffScan.hasNext m base s
  have hc : ∀ s' : DiffScan.St, s'.hnc = true → DiffScan.hasNext m base s' = (s'.hn, s') := by
    intro s' h; unfold DiffScan.hasNext; rw [if_pos h]
  by_cases h : s.hnc = true
  · rw [hc s h, hc s h]
  · have : (DiffScan.hasNext m base s).2.hnc = true ∧ (DiffScan.hasNext m base s).2.hn = (DiffScan.hasNext m base s).1 := by
      unfold DiffScan.hasNext
      rw [if_neg h]
      split
      · simp only
        split
        · exact ⟨rfl, rfl⟩
        · exact diffScan_moveKey_hnc _ _ _
      · exact diffScan_moveKey_hnc _ _ _
    rw [hc _ this.1, this.2]

theorem empty_idem : Obj.empty.I.Idem := idem_pure fun _ => rfl

theorem openTab_idem (kb : KB) (e v1 v2) : (kb.openTab e v1 v2).I.Idem := by
  unfold KB.openTab
  split
  · exact tab_idem _
  · exact empty_idem

theorem onReverse_idem (sort fuel old v1 v2) : (Obj.onReverse sort fuel old v1 v2).I.Idem := by
  unfold Obj.onReverse
  by_cases h : (reversed v1 (drain old.I fuel old.s)).length > 0
  · simp only; rw [if_pos h]; exact arr_idem _
  · simp only; rw [if_neg h]; exact empty_idem

theorem get_idem (kb : KB) (E idx cs v1 v2) : (kb.get E idx cs v1 v2).I.Idem := by
  unfold KB.get
  cases h : cs idx with
  | some e => exact openTab_idem _ _ _ _
  | none =>
    by_cases h3 : idx ≥ 3
    · simp only; rw [if_pos h3]
      cases h' : cs (idx - 3) with
      | some e => exact onReverse_idem _ _ _ _ _
      | none => exact empty_idem
    · simp only; rw [if_neg h3]; exact empty_idem

theorem main_idem (kb : KB) (E idx k v1 v2) : (kb.main E idx k v1 v2).I.Idem := by
  unfold KB.main
  split
  · exact get_idem _ _ _ _ _ _
  · exact empty_idem

theorem diff_get_idem (D : Diff3.Diff) (idx k v1 v2) : (D.get idx k v1 v2).I.Idem := by
  unfold Diff3.Diff.get
  cases h : (D.tree idx).find? fun e => decide (e.1 = k) with
  | some e =>
    simp only
    unfold Diff3.openTab
    cases h' : Diff3.openT D.mem (D.base idx) e.2 (optOf v1) (optOf v2) with
    | some t => exact tab_idem _
    | none => exact empty_idem
  | none => exact empty_idem

/-! ## What is asked of iterators -/

theorem yields_hasNext {σ α : Type} {I : Itr σ α} {s l} (h : Yields I s l) : (I.hasNext s).1 = !l.isEmpty := by
  cases h with
  | done h => exact h
  | step h _ => exact h

theorem yields_probed {σ α : Type} {I : Itr σ α} (hi : I.Idem) {s l} (h : Yields I s l) : Yields I (I.hasNext s).2 l :=
  yields_congr (hi s) h

/-- The iterator on a table returns `l`. -/
def GoodP (o : Obj) (l : List Pair) : Prop := o.I.Idem ∧ o.Returns l ∧ SortedS l

/-- The scan returns `l`. -/
def GoodS (o : Obj3) (l : List Row3) : Prop := o.I.Idem ∧ o.Returns l ∧ l.Pairwise Row3.lt

/-- `hasNext` was called on the scan and was true. -/
def Obj3.Ready (o : Obj3) : Prop := o.I.hasNext o.s = (true, o.s)

theorem pair_strict : Upd.Strict Pair.lt where
  irrefl a := by simp only [Pair.lt]; omega
  trans h h' := by simp only [Pair.lt] at *; omega
  tri {a b} h h' := by
    simp only [Pair.lt] at h h'
    exact Prod.ext (by omega) (by omega)

theorem row3_strict : Upd.Strict Row3.lt where
  irrefl := Row3.lt_irrefl
  trans := Row3.lt_trans
  tri := Row3.eq_of_not_lt

/-- The sorting functions sort. -/
structure UEnv.Ok (E : UEnv) : Prop where
  sortP : SortsPairs E.sortP
  sortC : ∀ cs, Composite.SortSpec (famItr cs) (E.sortC cs)
  sortS : ∀ cs, CScan.SortSpec (fam3Itr cs) (E.sortS cs)

theorem opsP_ok {E : UEnv} (hE : E.Ok) (k : Int) : Upd.OpsOk (opsP E k) (List.Pairwise Pair.lt) GoodP Obj.Ready E.fuel where
  uniq a b c := pair_strict.ext a b fun x => c.mem_iff
  sub a b := a.sublist b
  sorted h := h.2.2
  hasNext h := yields_hasNext h.2.1
  probe {o l} h := by
    refine ⟨⟨h.1, yields_probed h.1 h.2.1, h.2.2⟩, fun hl => ?_⟩
    show o.I.hasNext (o.I.hasNext o.s).2 = (true, (o.I.hasNext o.s).2)
    rw [h.1 o.s]
    have : (o.I.hasNext o.s).1 = true := by rw [yields_hasNext h.2.1]; simpa using hl
    exact Prod.ext this rfl
  ready {o} h := by
    have h : o.I.hasNext o.s = (true, o.s) := h
    refine ⟨?_, ?_⟩
    · show Obj.probed o = o
      unfold Obj.probed; rw [h]
    · show (o.I.hasNext o.s).1 = true
      rw [h]
  comp xs out h h1 h2 := by
    refine ⟨composite_idem _ _, ?_, h1⟩
    exact composite_yields hE.sortC xs (fun x hx => ⟨(h x hx).1, (h x hx).2.2.1, SortedS.sorted (h x hx).2.2.2⟩) (SortedS.sorted h1) h2
  rm ha hb lm lr := by
    refine ⟨rm_idem _ _ _ _, rm_yields ha.2.1 hb.2.1 (SortedS.sorted ha.2.2) (SortedS.sorted hb.2.2) lm lr, ?_⟩
    exact List.Pairwise.sublist List.filter_sublist ha.2.2

theorem Row3.lt_le {a b : Row3} (h : Row3.lt a b) : Triple.le a b := by
  simp only [Row3.lt, Pair.lt] at h; unfold Triple.le; omega

theorem opsS_ok {E : UEnv} (hE : E.Ok) : Upd.OpsOk (opsS E) (List.Pairwise Row3.lt) GoodS Obj3.Ready E.fuel where
  uniq a b c := row3_strict.ext a b fun x => c.mem_iff
  sub a b := a.sublist b
  sorted h := h.2.2
  hasNext h := yields_hasNext h.2.1
  probe {o l} h := by
    refine ⟨⟨h.1, yields_probed h.1 h.2.1, h.2.2⟩, fun hl => ?_⟩
    show o.I.hasNext (o.I.hasNext o.s).2 = (true, (o.I.hasNext o.s).2)
    rw [h.1 o.s]
    have : (o.I.hasNext o.s).1 = true := by rw [yields_hasNext h.2.1]; simpa using hl
    exact Prod.ext this rfl
  ready {o} h := by
    have h : o.I.hasNext o.s = (true, o.s) := h
    refine ⟨?_, ?_⟩
    · show Obj3.probed o = o
      unfold Obj3.probed; rw [h]
    · show (o.I.hasNext o.s).1 = true
      rw [h]
  comp xs out h h1 h2 := by
    refine ⟨cscan_idem _ _, ?_, h1⟩
    exact composite3_yields hE.sortS xs (fun x hx => ⟨(h x hx).2.2.1, (h x hx).2.2.2.imp Row3.lt_nl⟩) (h1.imp Row3.lt_nl) h2
  rm {a b ms rs} ha hb lm lr := by
    refine ⟨rm_idem _ _ _ _, ?_, List.Pairwise.sublist List.filter_sublist ha.2.2⟩
    exact C18_scan_difference a.I b.I a.s b.s (-1, -1, -1) ms rs ha.2.1 hb.2.1 (ha.2.2.imp Row3.lt_le) (hb.2.2.imp Row3.lt_le) E.fuel lm lr

/-! ## The tables of an update -/

theorem DiffOk_get {D : Diff3.Diff} {ts : List Triple} (d : Order) (h : Diff3.DiffOkAt D d ts) (k : Int) (c1 c2 : Option Int)
    (h1 : ∀ x ∈ c1, 0 ≤ x) (h2 : ∀ x ∈ c2, 0 ≤ x) (hc : c1 = none → c2 = none) :
    ∃ out, GoodP (D.get d.idx k (argOfPos c1) (argOfPos c2)) out ∧
      ∀ p, p ∈ out ↔ (∃ t ∈ ts, d.key t = k ∧ d.pair t = p) ∧ (∀ v ∈ c1, p.1 = v) ∧ ∀ v ∈ c2, p.2 = v := by
  have hid := diff_get_idem D d.idx k (argOfPos c1) (argOfPos c2)
  cases hf : (D.tree d.idx).find? fun e => decide (e.1 = k) with
  | some e =>
    have he := List.mem_of_find?_eq_some hf
    have hek : e.1 = k := by simpa using List.find?_some hf
    obtain ⟨ps, a, b⟩ := h.tables e he
    refine ⟨matching ps c1 c2, ⟨hid, ?_, ?_⟩, fun p => ?_⟩
    · unfold Diff3.Diff.get
      rw [hf]
      simp only
      rw [optOf_argOfPos h1, optOf_argOfPos h2]
      exact b.2.2.2 c1 c2
    · exact List.Pairwise.sublist List.filter_sublist b.2.1
    · rw [mem_matching hc, a p, hek]
  | none =>
    refine ⟨[], ⟨hid, ?_, .nil⟩, fun p => ⟨fun hp => absurd hp List.not_mem_nil, ?_⟩⟩
    · unfold Diff3.Diff.get
      rw [hf]
      exact .done rfl
    · rintro ⟨⟨t, ht, e, -⟩, -⟩
      obtain ⟨x, hx, hxk⟩ := h.complete t ht
      have := List.find?_eq_none.1 hf x hx
      simp only [decide_eq_true_eq] at this
      exact absurd (hxk.trans e) this

/-- The rows of the tables to come. -/
def rowsOf (l : List ((Int × Diff3.DCoord) × List Pair)) : List Row3 := l.flatMap fun e => e.2.map fun p => (e.1.1, p)

theorem diffScan_inner {m : Mem} {base : Nat} {r : List (Int × Diff3.DCoord)} {L : List Row3}
    (h : ∀ s : DiffScan.St, s.hnc = false → s.rest = r → s.cur = none → Yields (DiffScan.itr m base) s L) {t : Strat.Tab} {ps : List Pair}
    (hy : Yields (Strat.Tab.itr m) t ps) (s : DiffScan.St) (hh : s.hnc = false) (hr : s.rest = r) (hc : s.cur = some t) :
    Yields (DiffScan.itr m base) s ((ps.map fun p => (s.key, p)) ++ L) := by
  induction hy generalizing s with
  | @done t h1 =>
    have e1 : (DiffScan.itr m base).hasNext s = (DiffScan.itr m base).hasNext { s with cur := none } := by
      show DiffScan.hasNext m base s = DiffScan.hasNext m base { s with cur := none }
      unfold DiffScan.hasNext
      simp only [hh, hc, h1]
      rfl
    exact yields_congr e1 (h { s with cur := none } hh hr rfl)
  | @step t ps h1 h2 ih =>
    have hs : (DiffScan.itr m base).hasNext s = (true, { s with cur := some ((Strat.Tab.itr m).next ((Strat.Tab.itr m).hasNext t).2), hn := true, hnc := true }) := by
      show DiffScan.hasNext m base s = _
      unfold DiffScan.hasNext
      simp only [hh, hc, h1]
      rfl
    have := ih ((DiffScan.itr m base).next ((DiffScan.itr m base).hasNext s).2) (by rw [hs]; rfl) (by rw [hs]; exact hr) (by rw [hs]; rfl)
    have hkey : ((DiffScan.itr m base).next ((DiffScan.itr m base).hasNext s).2).key = s.key := by rw [hs]; rfl
    rw [hkey] at this
    have hval : (DiffScan.itr m base).val ((DiffScan.itr m base).next ((DiffScan.itr m base).hasNext s).2) =
        (s.key, (Strat.Tab.itr m).val ((Strat.Tab.itr m).next ((Strat.Tab.itr m).hasNext t).2)) := by rw [hs]; rfl
    have r := Yields.step (I := DiffScan.itr m base) (s := s) (by rw [hs]) this
    rw [hval] at r
    exact r

theorem diffScan_rest {m : Mem} {base : Nat} (l : List ((Int × Diff3.DCoord) × List Pair)) (h : ∀ e ∈ l, Diff3.DHolds m base e.1.2 e.2)
    (s : DiffScan.St) (hh : s.hnc = false) (hr : s.rest = l.map (·.1)) (hc : s.cur = none) : Yields (DiffScan.itr m base) s (rowsOf l) := by
  induction l generalizing s with
  | nil =>
    refine .done ?_
    show (DiffScan.hasNext m base s).1 = false
    unfold DiffScan.hasNext DiffScan.moveKey
    have hr : s.rest = [] := hr
    simp only [hh, hc, hr]
    rfl
  | cons e l ih =>
    obtain ⟨⟨k, c⟩, ps⟩ := e
    obtain ⟨hne, -, -, hopen⟩ := h ((k, c), ps) (by simp)
    have hy := hopen none none
    rw [matching_none] at hy
    unfold Diff3.openTab at hy
    cases ho : Diff3.openT m base c none none with
    | none =>
      exfalso
      rw [ho] at hy
      have := yields_hasNext hy
      have : (!ps.isEmpty) = false := this.symm
      exact hne (by simpa using this)
    | some t =>
      rw [ho] at hy
      have hy : Yields (Strat.Tab.itr m) t ps := hy
      clear hopen
      have hr : s.rest = (k, c) :: l.map (·.1) := hr
      have hs : (DiffScan.itr m base).hasNext s = (true, { s with rest := l.map (·.1), cur := some ((Strat.Tab.itr m).next ((Strat.Tab.itr m).hasNext t).2), key := k, hn := true, hnc := true }) := by
        show DiffScan.hasNext m base s = _
        unfold DiffScan.hasNext DiffScan.moveKey
        simp only [hh, hc, hr, ho]
        rfl
      cases hy with
      | done _ => exact absurd rfl hne
      | @step _ ps' g1 g2 =>
        have := diffScan_inner (fun s hh hr hc => ih (fun e he => h e (by simp [he])) s hh hr hc) g2 ((DiffScan.itr m base).next ((DiffScan.itr m base).hasNext s).2)
          (by rw [hs]; rfl) (by rw [hs]; rfl) (by rw [hs]; rfl)
        have hkey : ((DiffScan.itr m base).next ((DiffScan.itr m base).hasNext s).2).key = k := by rw [hs]; rfl
        rw [hkey] at this
        have hval : (DiffScan.itr m base).val ((DiffScan.itr m base).next ((DiffScan.itr m base).hasNext s).2) =
            (k, (Strat.Tab.itr m).val ((Strat.Tab.itr m).next ((Strat.Tab.itr m).hasNext t).2)) := by rw [hs]; rfl
        have r := Yields.step (I := DiffScan.itr m base) (s := s) (by rw [hs]) this
        rw [hval] at r
        exact r

theorem choose_lists {β : Type} {l : List β} {Q : β → List Pair → Prop} (h : ∀ e ∈ l, ∃ ps, Q e ps) :
    ∃ l' : List (β × List Pair), l'.map (·.1) = l ∧ ∀ e ∈ l', Q e.1 e.2 := by
  induction l with
  | nil => exact ⟨[], rfl, by simp⟩
  | cons x l ih =>
    obtain ⟨ps, hp⟩ := h x (by simp)
    obtain ⟨l', a, b⟩ := ih fun e he => h e (by simp [he])
    refine ⟨(x, ps) :: l', by simp [a], ?_⟩
    intro e he
    rcases List.mem_cons.1 he with rfl | he
    · exact hp
    · exact b e he

theorem DiffOk_scan {D : Diff3.Diff} {ts : List Triple} (d : Order) (h : Diff3.DiffOkAt D d ts) :
    ∃ out, GoodS (D.scan d.idx) out ∧ ∀ r, r ∈ out ↔ ∃ t ∈ ts, d.row t = r := by
  obtain ⟨l, hl, hq⟩ := choose_lists (Q := fun (e : Int × Diff3.DCoord) ps => PairsOf ts d e.1 ps ∧ Diff3.DHolds D.mem (D.base d.idx) e.2 ps) h.tables
  refine ⟨rowsOf l, ⟨diffScan_idem _ _, ?_, ?_⟩, fun r => ?_⟩
  · exact diffScan_rest l (fun e he => (hq e he).2) _ rfl hl.symm rfl
  · have hk := h.keys
    rw [← hl] at hk
    clear hl
    induction l with
    | nil => exact .nil
    | cons e l ih =>
      rw [List.map_cons, List.pairwise_cons] at hk
      have he := (hq e (by simp)).2
      show (e.2.map (fun p => (e.1.1, p)) ++ rowsOf l).Pairwise Row3.lt
      refine List.pairwise_append.2 ⟨?_, ih (fun e he => hq e (by simp [he])) hk.2, ?_⟩
      · exact List.pairwise_map.2 (List.Pairwise.imp (fun h => .inr ⟨rfl, h⟩) he.2.1)
      · intro a ha b hb
        obtain ⟨p, -, rfl⟩ := List.mem_map.1 ha
        obtain ⟨e', he', hb⟩ := List.mem_flatMap.1 hb
        obtain ⟨p', -, rfl⟩ := List.mem_map.1 hb
        exact .inl (hk.1 e'.1 (List.mem_map.2 ⟨e', he', rfl⟩))
  · constructor
    · intro hr
      obtain ⟨e, he, hr⟩ := List.mem_flatMap.1 hr
      obtain ⟨p, hp, rfl⟩ := List.mem_map.1 hr
      obtain ⟨t, ht, a, b⟩ := ((hq e he).1 p).1 hp
      exact ⟨t, ht, by rw [Order.row, a, b]⟩
    · rintro ⟨t, ht, rfl⟩
      obtain ⟨e, he, hk⟩ := h.complete t ht
      rw [← hl] at he
      obtain ⟨x, hx, rfl⟩ := List.mem_map.1 he
      refine List.mem_flatMap.2 ⟨x, hx, List.mem_map.2 ⟨d.pair t, ((hq x hx).1 _).2 ⟨t, ht, hk.symm, rfl⟩, ?_⟩⟩
      rw [hk]; rfl

/-! ## The stored graph -/

theorem Loaded.main_good {kb : KB} {g : List Triple} (h : Loaded kb g) {E : Env} (hE : SortsPairs E.sortP) (hf : g.length < E.fuel) (d : Order)
    (hd : kb.Reads d) (k : Int) (c1 c2 : Option Int) (h1 : ∀ x ∈ c1, 0 ≤ x) (h2 : ∀ x ∈ c2, 0 ≤ x) (hc : c1 = none → c2 = none) :
    ∃ out, GoodP (kb.main E d.idx k (argOfPos c1) (argOfPos c2)) out ∧
      ∀ p, p ∈ out ↔ (∃ t ∈ g, d.key t = k ∧ d.pair t = p) ∧ (∀ v ∈ c1, p.1 = v) ∧ ∀ v ∈ c2, p.2 = v := by
  have hid := main_idem kb E d.idx k (argOfPos c1) (argOfPos c2)
  cases hk : kb.coords k with
  | some cs =>
    obtain ⟨out, o1, o2, o3⟩ := h.get_returns hE hf d hd hk c1 c2 h1 h2 hc
    refine ⟨out, ⟨hid, ?_, o2⟩, o3⟩
    unfold KB.main; rw [hk]; exact o1
  | none =>
    refine ⟨[], ⟨hid, ?_, .nil⟩, fun p => ⟨fun hp => absurd hp List.not_mem_nil, ?_⟩⟩
    · unfold KB.main; rw [hk]; exact .done rfl
    rintro ⟨⟨t, ht, e1, -⟩, -⟩
    by_cases h3 : d.idx ≥ 3
    · obtain ⟨d', a1, a2, -⟩ := d.exists_partner h3
      have hp : kb.present (d.idx - 3) = true := by
        rcases hd with hp | hp
        · exact h.partner _ h3 hp
        · exact hp.2
      have hlt : d.idx - 3 < 3 := by cases d <;> simp [Order.idx]
      obtain ⟨cs, e, q1, -⟩ := h.complete d' (by rw [a1]; exact hlt) (by rw [a1]; exact hp) t ht
      rw [← a2, e1, hk] at q1
      simp at q1
    · obtain ⟨cs, e, q1, -⟩ := h.complete d (by omega) (by
        rcases hd with hp | hp
        · exact hp
        · exact absurd hp.1 h3) t ht
      rw [e1, hk] at q1
      simp at q1

theorem Order.eq_of_row (d : Order) {t t' : Triple} (h1 : d.key t = d.key t') (h2 : d.pair t = d.pair t') : t = t' := by
  obtain ⟨a, b, c⟩ := t
  obtain ⟨a', b', c'⟩ := t'
  have h3 : (d.pair ⟨a, b, c⟩).1 = (d.pair ⟨a', b', c'⟩).1 := by rw [h2]
  have h4 : (d.pair ⟨a, b, c⟩).2 = (d.pair ⟨a', b', c'⟩).2 := by rw [h2]
  cases d <;> simp [Order.key, Order.pair, Order.positions, Triple.at] at h1 h3 h4 <;> simp [h1, h3, h4]

/-! ## The whole query -/

theorem updates_query {kb : KB} {g : List Triple} (h : Loaded kb g) {E : UEnv} (hE : E.Ok) (us : List Update) (ds : List Diff3.Diff)
    (hlen : ds.length = us.length) (d : Order)
    (hds : ∀ i (h : i < us.length) (h' : i < ds.length), ds[i].add = Upd.isAdd us[i] ∧ Diff3.DiffOkAt ds[i] d us[i].triples) (hfresh : FreshAll g us)
    (hf : g.length + (us.map (·.triples.length)).sum < E.fuel) (q : Pattern) (hq : q.Wf) (hd : kb.Reads d)
    (h1 : (q.at d.positions.2.1).isSome → (q.at d.positions.1).isSome)
    (h2 : (q.at d.positions.2.2).isSome → (q.at d.positions.2.1).isSome)
    (hg : g ≠ [] ∨ (q.at d.positions.1).isSome) :
    ∃ out, (kb.getIteratorU E ds d.idx (argOfPos q.s) (argOfPos q.p) (argOfPos q.o)).Returns out ∧
      out.Pairwise Row3.lt ∧ ∀ r, r ∈ out ↔ ∃ t ∈ applyAll g us, q.Matches t ∧ d.row t = r := by
  have hd' : kb.present d.idx = true ∨ (d.idx ≥ 3 ∧ kb.present (d.idx - 3) = true) := hd
  unfold KB.getIteratorU
  rw [if_pos hd']
  simp only [permute_args]
  cases hk : q.at d.positions.1 with
  | some k =>
    have hk0 : 0 ≤ k := hq _ k hk
    have harg : argOfPos (some k) = k := rfl
    rw [harg, if_pos hk0]
    have hcc : q.at d.positions.2.1 = none → q.at d.positions.2.2 = none := by
      intro e; rw [e] at h2
      cases hx : q.at d.positions.2.2 with
      | none => rfl
      | some v => rw [hx] at h2; simp at h2
    generalize hc1 : q.at d.positions.2.1 = c1 at *
    generalize hc2 : q.at d.positions.2.2 = c2 at *
    have n1 : ∀ x ∈ c1, 0 ≤ x := by rw [← hc1]; exact hq _
    have n2 : ∀ x ∈ c2, 0 ≤ x := by rw [← hc2]; exact hq _
    obtain ⟨ol, o1, o2⟩ := h.main_good (E := E.toEnv) hE.sortP (by omega) d hd k c1 c2 n1 n2 hcc
    have hsel : ∀ (l : List Triple) (out : List Pair), (∀ p, p ∈ out ↔ (∃ t ∈ l, d.key t = k ∧ d.pair t = p) ∧ (∀ v ∈ c1, p.1 = v) ∧ ∀ v ∈ c2, p.2 = v) →
        Upd.Sel (fun t => d.key t = k ∧ (∀ v ∈ c1, (d.pair t).1 = v) ∧ ∀ v ∈ c2, (d.pair t).2 = v) d.pair l out := by
      intro l out ho p
      rw [ho p]
      constructor
      · rintro ⟨⟨t, a, b, rfl⟩, c, e⟩; exact ⟨t, a, ⟨b, c, e⟩, rfl⟩
      · rintro ⟨t, a, ⟨b, c, e⟩, rfl⟩; exact ⟨⟨t, a, b, rfl⟩, c, e⟩
    obtain ⟨o, l, m1, m2, m3⟩ := Upd.merged_ok pair_strict (opsP_ok hE k) (sec := decide (argOfPos c1 ≥ 0)) (f := d.pair)
      (P := fun t => d.key t = k ∧ (∀ v ∈ c1, (d.pair t).1 = v) ∧ ∀ v ∈ c2, (d.pair t).2 = v)
      (fun t t' a b e => d.eq_of_row (a.1.trans b.1.symm) e) us (ds.map fun D => (D.add, D.get d.idx k (argOfPos c1) (argOfPos c2))) (by simpa using hlen)
      (by
        intro i hi hi'
        simp only [List.getElem_map]
        obtain ⟨a, b⟩ := hds i hi (by simpa using hi')
        obtain ⟨out, c, e⟩ := DiffOk_get d b k c1 c2 n1 n2 hcc
        exact ⟨a, out, c, hsel _ _ e⟩) g hfresh hf o1 (hsel _ _ o2)
    simp only [m1]
    refine ⟨l.map fun p => (k, p), ⟨_, rfl, withKey_yields m2.2.1⟩, ?_, ?_⟩
    · exact List.pairwise_map.2 (List.Pairwise.imp (fun h => .inr ⟨rfl, h⟩) m2.2.2)
    · intro r
      rw [List.mem_map]
      constructor
      · rintro ⟨p, hp, rfl⟩
        obtain ⟨t, ht, ⟨e1, e3, e4⟩, rfl⟩ := (m3 p).1 hp
        refine ⟨t, ht, (matches_iff d q t).2 ⟨?_, ?_, ?_⟩, ?_⟩
        · rw [hk]; rintro v ⟨⟩; exact e1
        · rw [hc1]; exact e3
        · rw [hc2]; exact e4
        · rw [Order.row, e1]
      · rintro ⟨t, ht, hm, rfl⟩
        obtain ⟨m1, m2, m3'⟩ := (matches_iff d q t).1 hm
        have e1 : d.key t = k := m1 k hk
        rw [hc1] at m2
        rw [hc2] at m3'
        exact ⟨d.pair t, (m3 _).2 ⟨t, ht, ⟨e1, m2, m3'⟩, rfl⟩, by rw [Order.row, e1]⟩
  | none =>
    rw [hk] at h1 hg
    have e2 : q.at d.positions.2.1 = none := by
      cases hx : q.at d.positions.2.1 with
      | none => rfl
      | some v => rw [hx] at h1; simp at h1
    have e3 : q.at d.positions.2.2 = none := by
      cases hx : q.at d.positions.2.2 with
      | none => rfl
      | some v => rw [hx, e2] at h2; simp at h2
    have harg : ¬ argOfPos none ≥ 0 := by simp [argOfPos]
    rw [if_neg harg]
    obtain ⟨s, ol, a, b, c, e⟩ := h.scan (E := E.toEnv) hE.sortP (by omega) d hd (by
      rcases hg with hg | hg
      · exact hg
      · simp at hg)
    simp only [a]
    have hsel : ∀ (l : List Triple) (out : List Row3), (∀ r, r ∈ out ↔ ∃ t ∈ l, d.row t = r) → Upd.Sel (fun _ => True) d.row l out := by
      intro l out ho r
      rw [ho r]; simp
    obtain ⟨o, l, m1, m2, m3⟩ := Upd.merged_ok row3_strict (opsS_ok hE) (sec := false) (f := d.row) (P := fun _ => True)
      (fun t t' _ _ e => d.eq_of_row (congrArg (fun r : Row3 => r.1) e) (congrArg (fun r : Row3 => r.2) e)) us (ds.map fun D => (D.add, D.scan d.idx)) (by simpa using hlen)
      (by
        intro i hi hi'
        simp only [List.getElem_map]
        obtain ⟨a, b⟩ := hds i hi (by simpa using hi')
        obtain ⟨out, c, e⟩ := DiffOk_scan d b
        exact ⟨a, out, c, hsel _ _ e⟩) g hfresh hf
      (out := { σ := Scan.St, I := Scan.itr kb E.toEnv, mv := Scan.moveto kb, s := s }) ⟨scan_idem _ _, b, c⟩ (hsel _ _ e)
    simp only [m1]
    refine ⟨l, ⟨_, rfl, m2.2.1⟩, m2.2.2, fun r => ?_⟩
    rw [m3 r]
    constructor
    · rintro ⟨t, ht, -, hr⟩
      exact ⟨t, ht, (matches_iff d q t).2 (by rw [hk, e2, e3]; simp), hr⟩
    · rintro ⟨t, ht, -, hr⟩
      exact ⟨t, ht, trivial, hr⟩

end Trident
