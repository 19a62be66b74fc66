import Verif.Update.SubjectsProofs
import Verif.Update.MergeSpec
/-! Helper proofs for histories of updates with the numbers stored with them (no property statements here). -/
namespace Trident.Upd
open Load Diff3

theorem keys_idem (l : List Pair) : (Obj.keys l).I.Idem := idem_pure fun _ => rfl

theorem keys_steady (l : List Pair) : (Obj.keys l).Steady := fun _ => rfl

/-- The update lists its keys. -/
theorem stored_terms_of {S : Sorts} (hS : S.Ok) (rnd : Nat → Nat → Bool × Bool) (glob : Nat → List UInt8) {ts : List T3} (hn : ts.Nodup)
    (hids : ∀ t ∈ ts, t.1 < 2 ^ 32 - 1 ∧ t.2.1 < 2 ^ 32 - 1 ∧ t.2.2 < 2 ^ 32 - 1) (add small : Bool) (n : Nat) :
    DiffTerms.Of (request add ts) (Stored.terms ⟨add, small, build S rnd glob ts⟩ n) where
  isAdd := by
    cases add with
    | true => exact ⟨fun _ => ⟨_, rfl⟩, fun _ => rfl⟩
    | false => exact ⟨fun h => by simp [Stored.terms] at h, fun ⟨_, h⟩ => by simp [request] at h⟩
  list d := ⟨_, keys_returns _, by rw [request_triples]; exact build_isTermList hS rnd glob hn hids d, keys_idem _, keys_steady _⟩

/-- The directory holds the history `us`, with the numbers that were counted. -/
structure CountedOk (sortT : Sorter) (fuel : Nat) (base : Obj) (g : List Triple) (X : Counted) (us : List Update) : Prop where
  disk : DiskOk g X.disk us
  len : X.ns.length = us.length
  recd : ∃ uds : List (Update × DiffTerms), uds.map (·.1) = us ∧ uds.map (·.2) = List.zipWith Stored.terms X.disk.ups X.ns ∧ Recorded sortT fuel .spo base uds
  ids : ∀ u ∈ us, ∀ t ∈ u.triples, ∃ x : T3, x.triple = t ∧ x.1 < 2 ^ 32 - 1 ∧ x.2.1 < 2 ^ 32 - 1 ∧ x.2.2 < 2 ^ 32 - 1
  ne : ∀ u ∈ us, u.triples ≠ []

theorem CountedOk.empty (sortT fuel base g) : CountedOk sortT fuel base g Counted.empty [] :=
  ⟨DiskOk.empty g, rfl, ⟨[], rfl, rfl, .nil⟩, by simp, by simp⟩

/-- Additions add triples that were never in the stored graph. -/
def AddsNew (g : List Triple) (us : List Update) : Prop := ∀ u ∈ us, isAdd u = true → ∀ t ∈ u.triples, t ∉ g

theorem changesKeys_snoc' {o : Order} {g : List Triple} {us : List Update} {u : Update} (h : ChangesKeys o g us)
    (hu : u.triples = [] ∨ ∃ k, ¬ (k ∈ (applyAll g us).map o.key ↔ k ∈ (u.apply (applyAll g us)).map o.key)) : ChangesKeys o g (us ++ [u]) := by
  induction us generalizing g with
  | nil => exact ⟨hu, trivial⟩
  | cons v us ih => exact ⟨h.1, ih h.2 hu⟩

theorem holds_request {g : List Triple} {us : List Update} {add : Bool} {input ts : List T3}
    (hmem : ∀ t, t ∈ ts ↔ t ∈ input ∧ (if add then t.triple ∉ applyAll g us else t.triple ∈ applyAll g us)) :
    holdsAfter (· ∈ applyAll g us) [request add input] = (· ∈ applyAll g (us ++ [request add ts])) := by
  funext t
  apply propext
  rw [applyAll_append]
  cases add with
  | true =>
    show t ∈ applyAll g us ∨ t ∈ input.map T3.triple ↔ t ∈ applyAll g us ++ ts.map T3.triple
    rw [List.mem_append]
    constructor
    · rintro (a | a)
      · exact .inl a
      · obtain ⟨x, hx, rfl⟩ := List.mem_map.1 a
        by_cases hx2 : x.triple ∈ applyAll g us
        · exact .inl hx2
        · exact .inr (List.mem_map.2 ⟨x, (hmem x).2 ⟨hx, hx2⟩, rfl⟩)
    · rintro (a | a)
      · exact .inl a
      · obtain ⟨x, hx, rfl⟩ := List.mem_map.1 a
        exact .inr (List.mem_map.2 ⟨x, ((hmem x).1 hx).1, rfl⟩)
  | false =>
    show t ∈ applyAll g us ∧ t ∉ input.map T3.triple ↔ t ∈ (applyAll g us).filter (fun t => decide (t ∉ ts.map T3.triple))
    rw [List.mem_filter, decide_eq_true_eq]
    refine and_congr_right fun ht => not_congr ?_
    constructor
    · intro a
      obtain ⟨x, hx, rfl⟩ := List.mem_map.1 a
      exact List.mem_map.2 ⟨x, (hmem x).2 ⟨hx, ht⟩, rfl⟩
    · intro a
      obtain ⟨x, hx, rfl⟩ := List.mem_map.1 a
      exact List.mem_map.2 ⟨x, ((hmem x).1 hx).1, rfl⟩

theorem holdsAfter_cons (P : Triple → Prop) (u : Update) (us : List Update) : holdsAfter P (u :: us) = holdsAfter (holdsAfter P [u]) us := by
  cases u <;> rfl

theorem exists_subject {l : List Triple} {k : Int} : (∃ t, t ∈ l ∧ t.s = k) ↔ k ∈ l.map Order.spo.key := by
  rw [List.mem_map]; rfl

theorem zipWith_snoc {α β : Type} {γ : Type 1} (f : α → β → γ) (l : List α) (m : List β) (a : α) (b : β) (h : l.length = m.length) :
    List.zipWith f (l ++ [a]) (m ++ [b]) = List.zipWith f l m ++ [f a b] := by
  rw [List.zipWith_append h]; rfl

theorem CountedOk.write {sortT : Sorter} {fuel : Nat} {base : Obj} {g : List Triple} {X : Counted} {us : List Update} (hX : CountedOk sortT fuel base g X us) {S : Sorts} (hS : S.Ok)
    (rnd : Nat → Nat → Bool × Bool) (add : Bool) (ts : List T3) (nd : ts.Nodup) (hids : ∀ t ∈ ts, t.1 < 2 ^ 32 - 1 ∧ t.2.1 < 2 ^ 32 - 1 ∧ t.2.2 < 2 ^ 32 - 1)
    (hl : ts.length < 2 ^ 24) (htot : (us.map (·.triples.length)).sum + ts.length < 2 ^ 27) (hfr : (request add ts).Fresh (applyAll g us)) (hne : ts ≠ []) :
    CountedOk sortT fuel base g ⟨X.disk.write S rnd add ts,
      X.ns ++ [Stats.newKeys fuel add (getTermList sortT fuel 0 base (List.zipWith Stored.terms X.disk.ups X.ns)) (subjects S ts)]⟩ (us ++ [request add ts]) := by
  have hw := hX.disk.write hS rnd add ts hids hl htot hfr
  obtain ⟨uds, r1, r2, r3⟩ := hX.recd
  have hlen : X.disk.ups.length = X.ns.length := by rw [hX.disk.len, hX.len]
  generalize hcnt : Stats.newKeys fuel add (getTermList sortT fuel 0 base (List.zipWith Stored.terms X.disk.ups X.ns)) (subjects S ts) = cnt
  refine ⟨hw, by simp [hX.len], ?_, ?_, ?_⟩
  · have hOf := stored_terms_of hS rnd X.disk.glob nd hids add (decide (ts.length < USEGLOBAL)) cnt
    have hsub : subjects S ts = (build S rnd X.disk.glob ts (first Order.spo.idx)).keys.map fun k => ((k.key : Int), (k.n : Int)) :=
      isTermList_unique (subjects_isTermList hS ts) (build_isTermList hS rnd X.disk.glob nd hids .spo)
    refine ⟨uds ++ [(request add ts, Stored.terms ⟨add, decide (ts.length < USEGLOBAL), build S rnd X.disk.glob ts⟩ cnt)], ?_, ?_, ?_⟩
    · rw [List.map_append, r1]; rfl
    · rw [List.map_append, r2]
      exact (zipWith_snoc Stored.terms X.disk.ups X.ns _ cnt hlen).symm
    · refine .snoc r3 hOf (keys_returns _) ?_ ?_
      · rw [request_triples]; exact build_isTermList hS rnd X.disk.glob nd hids .spo
      · show cnt = Stats.newKeys fuel add (getTermList sortT fuel 0 base (uds.map (·.2))) _
        rw [← hcnt, r2, hsub]
  · intro v hv t ht
    rcases List.mem_append.1 hv with hv | hv
    · exact hX.ids v hv t ht
    · rw [List.mem_singleton.1 hv, request_triples] at ht
      obtain ⟨y, hy, rfl⟩ := List.mem_map.1 ht
      exact ⟨y, rfl, hids y hy⟩
  · intro v hv
    rcases List.mem_append.1 hv with hv | hv
    · exact hX.ne v hv
    · rw [List.mem_singleton.1 hv, request_triples]; simpa using hne

/-- One request for one triple, with an effect. -/
theorem updateC_one {kb : KB} {g : List Triple} (h : Loaded kb g) {E : UEnv} (hE : E.Ok) {S : Sorts} (hS : S.Ok) (sortT : Sorter) (base : Obj)
    (rnd : Nat → Nat → Bool × Bool) (hg : g ≠ []) (hr : kb.Reads .spo) {X : Counted} {us : List Update} (hX : CountedOk sortT E.fuel base g X us)
    {M : Mapping} (hM : M.Of X.disk) (add : Bool) (a : T3) (ha : a.1 < 2 ^ 32 - 1 ∧ a.2.1 < 2 ^ 32 - 1 ∧ a.2.2 < 2 ^ 32 - 1)
    (hf : g.length + (us.map (·.triples.length)).sum < E.fuel) (hvol : (us.map (·.triples.length)).sum + 1 < 2 ^ 27)
    (hc : if add then a.triple ∉ applyAll g us else a.triple ∈ applyAll g us) :
    ∃ X', updateC kb E S sortT base rnd M X add [a] = some X' ∧ CountedOk sortT E.fuel base g X' (us ++ [request add [a]]) ∧
      X'.ns = X.ns ++ [Stats.newKeys E.fuel add (getTermList sortT E.fuel 0 base (List.zipWith Stored.terms X.disk.ups X.ns)) (subjects S [a])] := by
  obtain ⟨ts, e, nd, hl, hmem⟩ := pending_spec h hE hS hX.disk hM hf hg hr add [a]
  have hts : ts = [a] := by
    have h1 : a ∈ ts := (hmem a).2 ⟨by simp, hc⟩
    match ts, h1, hl with
    | [x], h1, _ => rw [List.mem_singleton.1 h1]
    | _ :: _ :: _, _, hl => simp at hl
  subst hts
  have hfr : (request add [a]).Fresh (applyAll g us) := by
    cases add with
    | true => exact ⟨by simp, by simpa using hc⟩
    | false => exact ⟨by simp, by simpa using hc⟩
  refine ⟨_, ?_, hX.write hS rnd add [a] nd (by simpa using ha) (by simp) (by simpa using hvol) hfr (by simp), rfl⟩
  unfold updateC
  rw [e]; rfl

theorem updatesC_spec {kb : KB} {g : List Triple} (h : Loaded kb g) {E : UEnv} (hE : E.Ok) {S : Sorts} (hS : S.Ok) (sortT : Sorter) (base : Obj)
    (rnd : Nat → Nat → Nat → Bool × Bool) (hg : g ≠ []) (hr : kb.Reads .spo) {M : Nat → Disk → Mapping} (hM : ∀ n D, (M n D).Of D)
    (ops : List (Bool × List T3)) (n : Nat) {X : Counted} {us : List Update} (hX : CountedOk sortT E.fuel base g X us) (hfit : OpsFit ops)
    (hvol : (us.map (·.triples.length)).sum + volume ops < 2 ^ 27) (hf : g.length + (us.map (·.triples.length)).sum + volume ops < E.fuel) (c b : Prop)
    (hc : c → ChangesKeys .spo g us ∧ SubjectsChange (· ∈ applyAll g us) (ops.map fun u => request u.1 u.2))
    (hb : b → AddsNew g us ∧ NeverBack g (· ∈ applyAll g us) (ops.map fun u => request u.1 u.2)) :
    ∃ X' us', updatesC kb E S sortT base rnd M n X ops = some X' ∧ updates kb E S rnd M n X.disk ops = some X'.disk ∧
      CountedOk sortT E.fuel base g X' us' ∧ (us'.map (·.triples.length)).sum ≤ (us.map (·.triples.length)).sum + volume ops ∧
      (∀ t, t ∈ applyAll g us' ↔ holdsAfter (· ∈ applyAll g us) (ops.map fun u => request u.1 u.2) t) ∧
      (c → ChangesKeys .spo g us') ∧ (b → AddsNew g us') := by
  induction ops generalizing n X us with
  | nil => exact ⟨X, us, rfl, rfl, hX, by simp [volume], fun t => Iff.rfl, fun h => (hc h).1, fun h => (hb h).1⟩
  | cons u ops ih =>
    obtain ⟨add, input⟩ := u
    have hv : volume ((add, input) :: ops) = input.length + volume ops := rfl
    obtain ⟨ts, e, nd, hl, hmem⟩ := pending_spec h hE hS hX.disk (hM n X.disk) (by omega) hg hr add input
    have hfit' : OpsFit ops := ⟨fun v hv => hfit.ids v (List.mem_cons_of_mem _ hv), fun v hv => hfit.len v (List.mem_cons_of_mem _ hv)⟩
    have hP := holds_request (input := input) hmem
    rw [List.map_cons] at hc hb ⊢
    simp only at hc hb ⊢
    rw [holdsAfter_cons, hP]
    unfold updatesC updates updateC update
    simp only [e, Option.map_some]
    cases ts with
    | nil =>
      have e1 : applyAll g (us ++ [request add []]) = applyAll g us := by
        rw [applyAll_append]
        unfold request
        split
        · simp [Update.apply]
        · simp [Update.apply]
      rw [e1] at hP ⊢
      simp only [List.isEmpty_nil, if_true]
      obtain ⟨X', us', a1, a2, a3, a4, a5, a6, a7⟩ := ih (n + 1) hX hfit' (by omega) (by omega)
        (fun x => ⟨(hc x).1, by have := (hc x).2.2; rwa [hP] at this⟩) (fun x => ⟨(hb x).1, by have := (hb x).2.2; rwa [hP] at this⟩)
      exact ⟨X', us', a1, a2, a3, by omega, a5, a6, a7⟩
    | cons x ts =>
      generalize hts : x :: ts = ts' at *
      have hne : ts'.isEmpty = false := by rw [← hts]; rfl
      simp only [hne, Bool.false_eq_true, if_false]
      have hnd : (ts'.map T3.triple).Nodup := List.pairwise_map.2 (nd.imp fun {a b} hab e => hab (triple_inj e))
      have hall : ∀ t ∈ ts'.map T3.triple, if add then t ∉ applyAll g us else t ∈ applyAll g us := by
        intro t ht
        obtain ⟨y, hy, rfl⟩ := List.mem_map.1 ht
        exact ((hmem y).1 hy).2
      have hfr : (request add ts').Fresh (applyAll g us) := by
        cases add with
        | true => exact ⟨hnd, hall⟩
        | false => exact ⟨hnd, hall⟩
      have hids : ∀ t ∈ ts', t.1 < 2 ^ 32 - 1 ∧ t.2.1 < 2 ^ 32 - 1 ∧ t.2.2 < 2 ^ 32 - 1 := fun t ht =>
        hfit.ids (add, input) List.mem_cons_self t ((hmem t).1 ht).1
      have hsum : ((us ++ [request add ts']).map (·.triples.length)).sum = (us.map (·.triples.length)).sum + ts'.length := by
        simp [request_triples]
      have hX' := hX.write hS (rnd n) add ts' nd hids (by have : input.length < _ := hfit.len (add, input) List.mem_cons_self; omega) (by omega) hfr (by rw [← hts]; simp)
      obtain ⟨X', us', a1, a2, a3, a4, a5, a6, a7⟩ := ih (n + 1) hX' hfit' (by omega) (by omega)
        (fun hcc => by
          obtain ⟨x1, x2, x3⟩ := hc hcc
          refine ⟨changesKeys_snoc' x1 (.inr ?_), by rwa [hP] at x3⟩
          rcases x2 with x2 | ⟨k, hk⟩
          · exfalso
            have : ∀ t, t ∈ applyAll g (us ++ [request add ts']) ↔ t ∈ applyAll g us := fun t => by
              have := x2 t
              rw [hP] at this
              exact this
            have hx : x.triple ∈ ts'.map T3.triple := by rw [← hts]; simp
            have h1 := hall _ hx
            have h2 := this x.triple
            rw [applyAll_append] at h2
            cases add with
            | true => exact h1 (h2.1 (List.mem_append.2 (.inr hx)))
            | false =>
              have := (List.mem_filter.1 (h2.2 h1)).2
              simp only [decide_eq_true_eq] at this
              exact this hx
          · refine ⟨k, ?_⟩
            rw [hP] at hk
            rw [exists_subject, exists_subject, applyAll_append] at hk
            exact hk)
        (fun x => by
          obtain ⟨x1, x2, x3⟩ := hb x
          refine ⟨?_, by rwa [hP] at x3⟩
          intro v hv hva t ht htg
          rcases List.mem_append.1 hv with hv | hv
          · exact x1 v hv hva t ht htg
          · rw [List.mem_singleton.1 hv] at hva ht
            rw [request_isAdd] at hva
            subst hva
            rw [request_triples] at ht
            obtain ⟨y, hy, rfl⟩ := List.mem_map.1 ht
            have := (hmem y).1 hy
            exact this.2 (x2 (input.map T3.triple) rfl _ (List.mem_map.2 ⟨y, this.1, rfl⟩) htg))
      refine ⟨X', us', a1, a2, a3, ?_, a5, a6, a7⟩
      rw [hsum] at a4
      omega

/-- If every update changes the set of subjects, every number is positive. -/
theorem recorded_pos {sort : Sorter} (hsort : ∀ cs, Composite.SortSpecD (famItr cs) (sort cs)) {g : List Triple} (hg : g.Nodup)
    {base : Obj} {l : List Pair} (hid : base.I.Idem) (hb : base.Returns l) (hl : IsTermList (g.map Order.spo.key) l) {fuel : Nat}
    {uds : List (Update × DiffTerms)} (hr : Recorded sort fuel .spo base uds)
    (hus : FreshAll g (uds.map (·.1))) (hlt : ∀ x ∈ uds, ∀ t ∈ x.1.triples, Order.spo.key t < 2 ^ 32 - 1)
    (hch : ChangesKeys .spo g (uds.map (·.1))) (hne : ∀ x ∈ uds, x.1.triples ≠ [])
    (hf : g.length + (uds.map fun x => x.1.triples.length).sum < fuel) :
    ∀ x ∈ uds, 0 < x.2.nkeys 0 := by
  induction hr with
  | nil => simp
  | @snoc uds u d lu hr' hd hlu hlu2 hn ih =>
    rw [List.map_append] at hus hch
    obtain ⟨hus1, hu⟩ := freshAll_snoc hus
    obtain ⟨hch1, hcu⟩ := changesKeys_snoc hch
    rw [List.map_append, List.sum_append] at hf
    simp only [List.map_cons, List.map_nil, List.sum_cons, List.sum_nil] at hf hus1 hu hch1 hcu
    intro x hx
    rcases List.mem_append.1 hx with hx | hx
    · exact ih hus1 (fun x hx => hlt x (by simp [hx])) hch1 (fun x hx => hne x (by simp [hx])) (by omega) x hx
    · rw [List.mem_singleton.1 hx]
      obtain ⟨L, hL1, hL2⟩ := (recorded_lists hsort hg hid hb hl hr' hus1 (fun x hx => hlt x (by simp [hx])) hch1 (.inl rfl) (by omega)).obj hsort
      have hlen := applyAll_length_le (uds.map (·.1)) g
      rw [List.map_map] at hlen
      have hlen' : ((fun u => u.triples.length) ∘ fun x : Update × DiffTerms => x.1) = fun x => x.1.triples.length := rfl
      rw [hlen'] at hlen
      have hLl := hL2.length_le
      rw [List.length_map] at hLl
      show 0 < d.nkeys Order.spo.idx
      rw [hn]
      refine (newKeys_pos_iff (L := L) d.isAdd (Update.exists_add_of_isAdd hd) (termList_idem sort fuel _ hid _) hL1 hL2 hlu2
            (fun t ht => hlt (u, d) (by simp) t ht) (applyAll_nodup hg hus1) hu (by omega)).2 ?_
      exact hcu.resolve_left (hne (u, d) (by simp))

theorem zipWith_nkeys (ups : List Stored) (ns : List Nat) (h : ups.length = ns.length) : (List.zipWith Stored.terms ups ns).map (fun d => d.nkeys 0) = ns := by
  induction ups generalizing ns with
  | nil => cases ns with
    | nil => rfl
    | cons n ns => simp at h
  | cons u ups ih => cases ns with
    | nil => simp at h
    | cons n ns => simp only [List.zipWith_cons_cons, List.map_cons, ih ns (by simpa using h)]; rfl

theorem CountedOk.pos {sortT : Sorter} (hsort : ∀ cs, Composite.SortSpecD (famItr cs) (sortT cs)) {g : List Triple} (hg : g.Nodup)
    {base : Obj} {l : List Pair} (hid : base.I.Idem) (hb : base.Returns l) (hl : IsTermList (g.map Order.spo.key) l) {fuel : Nat} {X : Counted} {us : List Update}
    (h : CountedOk sortT fuel base g X us) (hch : ChangesKeys .spo g us) (hf : g.length + (us.map (·.triples.length)).sum < fuel) : ∀ n ∈ X.ns, 0 < n := by
  obtain ⟨uds, r1, r2, r3⟩ := h.recd
  subst r1
  have hns : uds.map (fun x => x.2.nkeys 0) = X.ns := by
    have := congrArg (List.map fun d : DiffTerms => d.nkeys 0) r2
    rw [zipWith_nkeys _ _ (by rw [h.disk.len, h.len]), List.map_map] at this
    exact this
  intro n hn
  rw [← hns] at hn
  obtain ⟨x, hx, rfl⟩ := List.mem_map.1 hn
  refine recorded_pos hsort hg hid hb hl r3 h.disk.fresh ?_ hch (fun x hx => h.ne _ (List.mem_map_of_mem hx)) (by rw [List.map_map] at hf; exact hf) x hx
  intro x hx t ht
  obtain ⟨y, rfl, hy, -⟩ := h.ids _ (List.mem_map_of_mem hx) t ht
  show ((y.1 : Int)) < _
  omega

end Trident.Upd
