import Verif.Update.SummaryProofs
/-! Helper proofs for `mergeUpdates` (no property statements here). -/
namespace Trident.Upd
open Load Diff3

/-- The updates whose number is positive. -/
def seen (us : List Update) (ns : List Nat) : List Update := ((us.zip ns).filter fun x => decide (0 < x.2)).map (·.1)

theorem counted_zip (us : List Update) (ds : List Diff) (ns : List Nat) (h : ds.length = us.length) : counted (us.zip (ds.zip ns)) = seen us ns := by
  induction us generalizing ds ns with
  | nil => rfl
  | cons u us ih =>
    match ds, ns with
    | [], _ => simp at h
    | d :: ds, [] => simp [counted, seen]
    | d :: ds, n :: ns =>
      simp only [List.zip_cons_cons]
      have := ih ds ns (by simpa using h)
      unfold seen
      simp only [List.zip_cons_cons]
      by_cases hn : 0 < n
      · rw [counted_cons_pos hn, List.filter_cons_of_pos (by simpa using hn), List.map_cons, this]; rfl
      · rw [counted_cons_neg hn, List.filter_cons_of_neg (by simpa using hn), this]; rfl

theorem seen_all {us : List Update} {ns : List Nat} (h : ns.length = us.length) (hp : ∀ n ∈ ns, 0 < n) : seen us ns = us := by
  induction us generalizing ns with
  | nil => rfl
  | cons u us ih =>
    match ns with
    | [] => simp at h
    | n :: ns =>
      have := ih (ns := ns) (by simpa using h) (fun m hm => hp m (by simp [hm]))
      unfold seen at *
      rw [List.zip_cons_cons, List.filter_cons_of_pos (by simpa using hp n (by simp)), List.map_cons, this]

/-- What is left to write is exactly the two parts. -/
structure Parts (g : List Triple) (vs : List Update) (S : Sorts) (rnd : Nat → Nat → Nat → Bool × Bool) (N : NDir) (TA TR : List T3) (k : Nat) : Prop where
  disk : N.disk = wr S (rnd 1) false (wr S (rnd 0) true Disk.empty TA) TR
  ok : DiskOk (TR.map T3.triple) N.disk (batch true TA ++ batch false TR)
  ndA : (TA.map T3.triple).Nodup
  ndR : (TR.map T3.triple).Nodup
  memA : ∀ t, t ∈ TA.map T3.triple ↔ t ∈ left true vs
  memR : ∀ t, t ∈ TR.map T3.triple ↔ t ∈ left false vs ∧ t ∈ g
  len : TA.length + TR.length ≤ k
  nums : N.ups.map (·.1) = (if TA.isEmpty then [] else [0]) ++ (if TR.isEmpty then [] else [if (∃ u ∈ vs, isAdd u = true) then 1 else 0])

theorem Parts.ups {g vs S rnd N TA TR k} (P : Parts g vs S rnd N TA TR k) : N.ups.isEmpty = (TA.isEmpty && TR.isEmpty) := by
  have h : N.ups.isEmpty = (N.ups.map (·.1)).isEmpty := by cases N.ups <;> rfl
  rw [h, P.nums]
  by_cases h1 : TA.isEmpty <;> by_cases h2 : TR.isEmpty <;> simp [h1, h2]

theorem mergeUpdates_spec {kb : KB} {g : List Triple} (hkb : Loaded kb g) {E : UEnv} (hE : E.Ok) (hg : g ≠ []) (hr : kb.Reads .spo) {S : Sorts} (hS : S.Ok)
    (rnd : Nat → Nat → Nat → Bool × Bool) {sortT : Sorter} {fuel : Nat} {base : Obj} {X : Counted} {us : List Update} (hX : CountedOk sortT fuel base g X us)
    {M : Mapping} (hM : M.Of X.disk) (hnew : ∀ a, NewFor a [] (seen us X.ns))
    (hf : g.length + (us.map (·.triples.length)).sum < E.fuel) (hvol : (us.map (·.triples.length)).sum < 2 ^ 24)
    (hseen : ∀ u ∈ us, ∃ v ∈ seen us X.ns, isAdd v = isAdd u) :
    ∃ N TA TR, Parts g (seen us X.ns) S rnd N TA TR ((us.map (·.triples.length)).sum) ∧
      mergeUpdates kb E S rnd M X =
        if (us.filter fun u => isAdd u == true).length ≤ 1 ∧ (us.filter fun u => isAdd u == false).length ≤ 1 then .same
        else if N.ups.isEmpty then .failed else .done N := by
  obtain ⟨o1, o2⟩ := hX.disk.opened hM
  generalize hL : us.zip ((X.disk.opened M).zip X.ns) = L
  have hz : ((X.disk.opened M).zip X.ns).length = us.length := by rw [List.length_zip, o1, hX.len]; omega
  have l1 : L.map (·.1) = us := by rw [← hL, List.map_fst_zip (by omega)]
  have l2 : L.map (·.2) = (X.disk.opened M).zip X.ns := by rw [← hL, List.map_snd_zip (by omega)]
  have hc : counted L = seen us X.ns := by rw [← hL]; exact counted_zip us _ _ o1
  have hO : OpenedAs L := by
    intro x hx
    rw [← hL] at hx
    obtain ⟨i, hi, rfl⟩ := List.getElem_of_mem hx
    have hi1 : i < us.length := by rw [List.length_zip] at hi; omega
    rw [List.getElem_zip, List.getElem_zip]
    have := o2 i hi1 (by omega)
    exact ⟨this.1, this.2.at _⟩
  have e1 : ((L.map (·.2)).filter fun d => d.1.add).length = ((L.map (·.1)).filter fun u => isAdd u == true).length := by
    rw [← opened_filter hO true]; simp
  have e2 : ((L.map (·.2)).filter fun d => !d.1.add).length = ((L.map (·.1)).filter fun u => isAdd u == false).length := by
    rw [← opened_filter hO false]
    congr 1
    refine List.filter_congr fun d _ => ?_
    cases d.1.add <;> rfl
  obtain ⟨N, TA, TR, n0, n1, n2, n3, n4, n5, n6, n7, n8⟩ := newDiff_spec hkb hE hg hr hS rnd hO (by rw [hc]; exact hnew) (by rw [l1]; exact hX.ids)
    (by rw [l1]; exact hf) (by rw [l1]; exact hvol) (by rw [l1, hc]; exact hseen)
  rw [l1] at e1 e2 n7 n8
  rw [hc] at n5 n6
  refine ⟨N, TA, TR, ⟨n1, n2, n3, n4, n5, n6, n7, ?_⟩, ?_⟩
  · rw [n8]
    congr 2
    have hiff : (us.filter fun u => isAdd u == true).length ≠ 0 ↔ ∃ u ∈ seen us X.ns, isAdd u = true := by
      rw [show ((us.filter fun u => isAdd u == true).length ≠ 0) ↔ (us.filter fun u => isAdd u == true).length ≥ 1 from by omega, filter_pos_iff]
      constructor
      · rintro ⟨u, hu, hk⟩
        obtain ⟨v, hv, hvk⟩ := hseen u hu
        exact ⟨v, hv, hvk.trans hk⟩
      · rintro ⟨u, hu, hk⟩
        have := counted_sub L u (by rw [hc]; exact hu)
        rw [l1] at this
        exact ⟨u, this, hk⟩
    by_cases hh : ∃ u ∈ seen us X.ns, isAdd u = true
    · rw [if_pos hh, if_pos (hiff.2 hh)]
    · rw [if_neg hh, if_neg (fun x => hh (hiff.1 x))]
  · unfold mergeUpdates
    simp only
    rw [← l2, e1, e2, n0]

/-- The parts in terms of the graph. -/
theorem Parts.shows {g vs S rnd N TA TR k} (P : Parts g vs S rnd N TA TR k) (hA : ∀ t ∈ left true vs, t ∉ g) :
    FreshAll g (batch true TA ++ batch false TR) ∧ ∀ t, t ∈ applyAll g (batch true TA ++ batch false TR) ↔ (t ∈ g ∨ t ∈ left true vs) ∧ ¬ (t ∈ left false vs ∧ t ∈ g) := by
  have hAg : ∀ t ∈ TA.map T3.triple, t ∉ g := fun t ht => hA t ((P.memA t).1 ht)
  have dis : ∀ t, t ∈ left true vs → t ∈ left false vs → False := fun t a b => left_disjoint a b
  by_cases h1 : TA.isEmpty
  · have hA0 : TA = [] := by simpa using h1
    subst hA0
    have nA : ∀ t, t ∉ left true vs := fun t ht => by have := (P.memA t).2 ht; simp at this
    by_cases h2 : TR.isEmpty
    · have hR0 : TR = [] := by simpa using h2
      subst hR0
      have nR : ∀ t, ¬ (t ∈ left false vs ∧ t ∈ g) := fun t ht => by have := (P.memR t).2 ht; simp at this
      refine ⟨trivial, fun t => ?_⟩
      show t ∈ g ↔ _
      simp only [nA t, or_false]
      exact ⟨fun h => ⟨h, nR t⟩, fun h => h.1⟩
    · have e : batch true [] ++ batch false TR = [request false TR] := by unfold batch; simp [h2]
      rw [e]
      refine ⟨⟨⟨P.ndR, fun t ht => ((P.memR t).1 ht).2⟩, trivial⟩, fun t => ?_⟩
      show t ∈ g.filter (fun t => decide (t ∉ TR.map T3.triple)) ↔ _
      rw [List.mem_filter, decide_eq_true_eq, P.memR]
      simp only [nA t, or_false]
  · by_cases h2 : TR.isEmpty
    · have hR0 : TR = [] := by simpa using h2
      subst hR0
      have nR : ∀ t, ¬ (t ∈ left false vs ∧ t ∈ g) := fun t ht => by have := (P.memR t).2 ht; simp at this
      have e : batch true TA ++ batch false [] = [request true TA] := by unfold batch; simp [h1]
      rw [e]
      refine ⟨⟨⟨P.ndA, hAg⟩, trivial⟩, fun t => ?_⟩
      show t ∈ g ++ TA.map T3.triple ↔ _
      rw [List.mem_append, P.memA]
      exact ⟨fun h => ⟨h, nR t⟩, fun h => h.1⟩
    · have e : batch true TA ++ batch false TR = [request true TA, request false TR] := by unfold batch; simp [h1, h2]
      rw [e]
      refine ⟨⟨⟨P.ndA, hAg⟩, ⟨P.ndR, fun t ht => List.mem_append.2 (.inl ((P.memR t).1 ht).2)⟩, trivial⟩, fun t => ?_⟩
      show t ∈ (g ++ TA.map T3.triple).filter (fun t => decide (t ∉ TR.map T3.triple)) ↔ _
      rw [List.mem_filter, decide_eq_true_eq, List.mem_append, P.memA, P.memR]

theorem batch_sum (TA TR : List T3) : ((batch true TA ++ batch false TR).map (·.triples.length)).sum ≤ TA.length + TR.length := by
  unfold batch
  by_cases h1 : TA.isEmpty <;> by_cases h2 : TR.isEmpty <;> simp [h1, h2, request_triples]

/-- The number that is stored with an update. -/
theorem CountedOk.count {sortT : Sorter} (hsort : ∀ cs, Composite.SortSpecD (famItr cs) (sortT cs)) {g : List Triple} (hg : g.Nodup)
    {base : Obj} {l : List Pair} (hid : base.I.Idem) (hb : base.Returns l) (hl : IsTermList (g.map Order.spo.key) l) {fuel : Nat} {X : Counted} {us : List Update}
    (h : CountedOk sortT fuel base g X us) (hch : ChangesKeys .spo g us) (hf : g.length + (us.map (·.triples.length)).sum < fuel)
    {S : Sorts} (hS : S.Ok) {add : Bool} {ts : List T3} (hids : ∀ t ∈ ts, t.1 < 2 ^ 32 - 1) (hfr : (request add ts).Fresh (applyAll g us)) :
    0 < Stats.newKeys fuel add (getTermList sortT fuel 0 base (List.zipWith Stored.terms X.disk.ups X.ns)) (subjects S ts) ↔
      ∃ k, ¬ (k ∈ (applyAll g us).map Order.spo.key ↔ k ∈ ((request add ts).apply (applyAll g us)).map Order.spo.key) := by
  obtain ⟨uds, r1, r2, r3⟩ := h.recd
  subst r1
  have hf' : g.length + (uds.map fun x => x.1.triples.length).sum < fuel := by rw [List.map_map] at hf; exact hf
  obtain ⟨L, hL1, hL2⟩ := (recorded_lists hsort hg hid hb hl r3 h.disk.fresh (fun x hx t ht => by
    obtain ⟨y, rfl, hy, -⟩ := h.ids _ (List.mem_map_of_mem hx) t ht
    show ((y.1 : Int)) < _
    omega) hch (.inl rfl) hf').obj hsort
  have hlen := applyAll_length_le (uds.map (·.1)) g
  have hLl := hL2.length_le
  rw [List.length_map] at hLl
  rw [← r2]
  refine newKeys_pos_iff (L := L) add ?_ (termList_idem sortT fuel _ hid _) hL1 hL2 ?_ ?_ (applyAll_nodup hg h.disk.fresh) hfr (by omega)
  · cases add with
    | true => exact .inl ⟨rfl, _, rfl⟩
    | false => exact .inr ⟨rfl, _, rfl⟩
  · rw [request_triples]; exact subjects_isTermList hS ts
  · rw [request_triples]
    intro t ht
    obtain ⟨y, hy, rfl⟩ := List.mem_map.1 ht
    have := hids y hy
    show ((y.1 : Int)) < _
    omega

end Trident.Upd
