import Verif.Sparql.AggrScan
import Verif.Sparql.IndexScanProofs
import Verif.Props.Counts
/-! # Aggregated scans of an index: proofs -/
namespace Trident.Sparql.Scan
open PlanGen

theorem runs_stepAggr {it : Obj3} {op : Op} {out : Row3 → Tup} {p : Row3 → Bool} {s : it.σ} {l : List Row3} (hy : Yields it.I s l)
    (h : ∀ r ∈ l, op.check r = if p r then .row else .skip) : Runs (stepAggr it op out) s ((l.filter p).map fun r => (r.2.2.toNat, out r)) := by
  induction hy with
  | done h1 => exact .stop (by simp [stepAggr, h1])
  | @step s l h1 _ ih =>
    have hc := h _ (List.mem_cons_self ..)
    have ih := ih fun r hr => h r (List.mem_cons_of_mem _ hr)
    cases hp : p (it.I.val (it.I.next (it.I.hasNext s).2)) with
    | true =>
      rw [hp] at hc
      rw [List.filter_cons_of_pos hp, List.map_cons]
      refine .emit ?_ ih
      simp only [stepAggr, if_pos h1, hc, if_true]
    | false =>
      rw [hp] at hc
      rw [List.filter_cons_of_neg (by simp [hp])]
      refine .go ?_ ih
      simp [stepAggr, if_pos h1, hc]

theorem sum_ind {α : Type} [DecidableEq α] (y : α) : ∀ {ks : List α}, ks.Nodup → (ks.map fun x => if y = x then 1 else 0).sum = if y ∈ ks then 1 else 0
  | [], _ => rfl
  | x :: ks, h => by
    rw [List.nodup_cons] at h
    rw [List.map_cons, List.sum_cons, sum_ind y h.2]
    by_cases e : y = x
    · subst e; simp [h.1]
    · simp [e]

/-- A list counted by its values. -/
theorem sum_count {α : Type} [DecidableEq α] [BEq α] [LawfulBEq α] {ks : List α} (hk : ks.Nodup) : ∀ {L : List α}, (∀ y ∈ L, y ∈ ks) → (ks.map fun x => L.count x).sum = L.length
  | [], _ => by
    clear hk
    induction ks with
    | nil => rfl
    | cons a ks ih => simpa using ih
  | y :: L, h => by
    have ih := sum_count hk (L := L) fun z hz => h z (by simp [hz])
    have : (fun x => (y :: L).count x) = fun x => L.count x + if y = x then 1 else 0 := by
      funext x
      rw [List.count_cons]
      by_cases e : y = x <;> simp [e]
    rw [this, List.length_cons, ← ih]
    have hadd : ∀ (l : List α), (l.map fun x => L.count x + if y = x then 1 else 0).sum = (l.map fun x => L.count x).sum + (l.map fun x => if y = x then 1 else 0).sum := by
      intro l
      induction l with
      | nil => rfl
      | cons a l ih => rw [List.map_cons, List.sum_cons, ih, List.map_cons, List.sum_cons, List.map_cons, List.sum_cons]; omega
    rw [hadd, sum_ind y hk, if_pos (h y (by simp))]

theorem slotValue_congr {n : Node} {slots : List Nat} {d e : PlanGen.Triple} (h : ∀ s ∈ slots, d.slot s = e.slot s) (x : Nat) : slotValue n slots d x = slotValue n slots e x := by
  unfold slotValue
  congr 1
  have hall : ∀ s ∈ [2, 1, 0].filter slots.contains, d.slot s = e.slot s := by
    intro s hs
    exact h s (by simpa using (List.mem_filter.1 hs).2)
  generalize [2, 1, 0].filter slots.contains = l at hall
  induction l with
  | nil => rfl
  | cons a l ih => rw [List.findSome?_cons, List.findSome?_cons, hall a (by simp), ih fun s hs => hall s (by simp [hs])]

theorem matchesSlots_congr {n : Node} {slots : List Nat} {d e : PlanGen.Triple} (h : ∀ s ∈ slots, d.slot s = e.slot s) : matchesSlots n slots d = matchesSlots n slots e := by
  rw [matchesSlots, matchesSlots, Bool.eq_iff_iff, List.all_eq_true, List.all_eq_true]
  constructor
  · intro hh s hs; have := hh s hs; rw [h s hs] at this; exact this
  · intro hh s hs; have := hh s hs; rw [← h s hs] at this; exact this

/-- What an aggregated scan sees of a triple. -/
def seen (o : Ord) (t : PlanGen.Triple) : Int × Int := ((t.slot (o.slots.getD 0 0) : Int), (t.slot (o.slots.getD 1 0) : Int))

theorem slots_aggr (o : Ord) : scanSlots .aggr o = [o.slots.getD 0 0, o.slots.getD 1 0] := by cases o <;> rfl

theorem registersAggr_slot (o : Ord) (t : PlanGen.Triple) (c : Int) : ∀ s ∈ scanSlots .aggr o, (registersAggr o ((seen o t).1, ((seen o t).2, c))).slot s = t.slot s := by
  cases o <;> (intro s hs; simp only [scanSlots, Kind.width, Ord.slots, List.take_succ_cons, List.take_zero, List.mem_cons, List.not_mem_nil, or_false] at hs; rcases hs with rfl | rfl <;> rfl)

theorem fits_seen {n : Node} {o : Ord} {t : PlanGen.Triple} (c : Int) :
    fits (constAt n (o.slots.getD 0 0)) (constAt n (o.slots.getD 1 0)) none ((seen o t).1, ((seen o t).2, c)) = matchesSlots n (scanSlots .aggr o) t := by
  have key : ∀ s, (match constAt n s with | none => true | some a => decide ((t.slot s : Int) = a)) =
      (match n.slot s with | .const k => t.slot s == k | .var _ => true) := by
    intro s
    unfold constAt
    cases n.slot s with
    | const k =>
      show decide ((t.slot s : Int) = (k : Int)) = (t.slot s == k)
      by_cases h : t.slot s = k
      · simp [h]
      · have : ¬ ((t.slot s : Int) = (k : Int)) := by omega
        simp [h, this]
    | var _ => rfl
  rw [matchesSlots, slots_aggr]
  simp only [List.all_cons, List.all_nil, Bool.and_true, fits]
  exact congr (congrArg and (key _)) (key _)

theorem countOf_seen {db : List PlanGen.Triple} {o : Ord} {k v : Int} : countOf (db.map cast) (perm o) k v = (db.map (seen o)).count (k, v) := by
  rw [countOf, List.filter_map, List.length_map, List.count_eq_length_filter, List.filter_map, List.length_map]
  congr 1
  refine List.filter_congr fun t _ => ?_
  have e1 : ((perm o).key (cast t), ((perm o).pair (cast t)).1) = seen o t := by cases o <;> rfl
  show decide ((perm o).key (cast t) = k ∧ ((perm o).pair (cast t)).1 = v) = (seen o t == (k, v))
  rw [← e1]
  by_cases h1 : (perm o).key (cast t) = k <;> by_cases h2 : ((perm o).pair (cast t)).1 = v <;> simp [h1, h2]

theorem first_le2 {n : Node} {o : Ord} (hn : n.vars.Nodup) {d e : PlanGen.Triple} (hd : matchesSlots n (scanSlots .aggr o) d = true)
    (he : matchesSlots n (scanSlots .aggr o) e = true) (h : (seen o d).1 < (seen o e).1 ∨ ((seen o d).1 = (seen o e).1 ∧ (seen o d).2 < (seen o e).2))
    {x : Nat} (hx : (scanSlots .aggr o).findSome? n.varAt = some x) : slotValue n (scanSlots .aggr o) d x ≤ slotValue n (scanSlots .aggr o) e x := by
  have hlt : ∀ s ∈ scanSlots .aggr o, s < 3 := by cases o <;> decide
  have h0 : o.slots.getD 0 0 ∈ scanSlots .aggr o := by cases o <;> decide
  have h1 : o.slots.getD 1 0 ∈ scanSlots .aggr o := by cases o <;> decide
  have eqs : ∀ s ∈ scanSlots .aggr o, n.varAt s = none → d.slot s = e.slot s := by
    intro s hs hv
    have a := matches_slot hd hs hv
    rw [matches_slot he hs hv] at a
    exact (Analysis.PElem.const.inj a).symm
  simp only [seen] at h
  rw [slots_aggr] at hx
  simp only [List.findSome?_cons, List.findSome?_nil] at hx
  cases v0 : n.varAt (o.slots.getD 0 0) with
  | some y =>
    rw [v0] at hx
    cases hx
    rw [slotValue_eq hn (hlt _ h0) h0 v0, slotValue_eq hn (hlt _ h0) h0 v0]
    omega
  | none =>
    rw [v0] at hx
    have e0 := eqs _ h0 v0
    cases v1 : n.varAt (o.slots.getD 1 0) with
    | some y =>
      rw [v1] at hx
      cases hx
      rw [slotValue_eq hn (hlt _ h1) h1 v1, slotValue_eq hn (hlt _ h1) h1 v1]
      omega
    | none => rw [v1] at hx; cases hx

theorem bag_counts (l : List Row3) (f : Row3 → Tup) (t : Tup) :
    bag (l.map fun r => ((r.2.2.toNat, f r) : Row)) t = ((l.filter fun r => f r = t).map fun r => r.2.2.toNat).sum := by
  induction l with
  | nil => rfl
  | cons a l ih =>
    rw [List.map_cons, bag_cons, ih]
    by_cases h : f a = t
    · rw [if_pos h, List.filter_cons_of_pos (by simpa using h), List.map_cons, List.sum_cons]
    · rw [if_neg h, List.filter_cons_of_neg (by simpa using h), Nat.zero_add]

theorem scan_rows_aggr {getD : Nat → Int → Int → Int → QRes} {db : List PlanGen.Triple} (ha : AnswersD getD (db.map cast)) (q : Query) (o : Ord)
    (free : Bool) (i : Nat) (hn : (q.node i).vars.Nodup) (names : List Nat) :
    ∃ rows, ReturnsAggr getD (q.node i) o names rows ∧ ScanRows db q .aggr o free i names rows := by
  let n := q.node i
  let P := prefix1 (constAt n (o.slots.getD 0 0)) (constAt n (o.slots.getD 1 0)) none
  let pat := prefixPat (perm o) (P.1.map Int.ofNat) (P.2.1.map Int.ofNat) (P.2.2.map Int.ofNat)
  have hat := prefixPat_at (perm o) (P.1.map Int.ofNat) (P.2.1.map Int.ofNat) (P.2.2.map Int.ofNat)
  have hP : (P.2.1.isSome → P.1.isSome) ∧ P.2.2 = none := by
    show ((prefix1 _ _ _).2.1.isSome → (prefix1 _ _ _).1.isSome) ∧ (prefix1 _ _ _).2.2 = none
    generalize constAt n (o.slots.getD 0 0) = a
    generalize constAt n (o.slots.getD 1 0) = b
    cases a <;> cases b <;> simp [prefix1]
  obtain ⟨out, it, hget, hret, hsort, hmem⟩ := ha pat (perm o) prefixPat_wf
    (by show ((prefixPat _ _ _ _).at _).isSome → ((prefixPat _ _ _ _).at _).isSome; rw [hat.1, hat.2.1]; simpa using hP.1)
    (by show (prefixPat _ _ _ _).at _ = none; rw [hat.2.2, hP.2]; rfl)
  have hmem : ∀ k v c, (k, (v, c)) ∈ out ↔ (∀ a ∈ P.1.map Int.ofNat, k = a) ∧ (∀ b ∈ P.2.1.map Int.ofNat, v = b) ∧ c = ((db.map (seen o)).count (k, v) : Int) ∧ 0 < c := by
    intro k v c
    rw [hmem, countOf_seen]
    show (∀ a ∈ (prefixPat _ _ _ _).at _, _) ∧ (∀ b ∈ (prefixPat _ _ _ _).at _, _) ∧ _ ↔ _
    rw [hat.1, hat.2.1]
  have hopen : open' getD o (opForAggr n o) = .itr it := by
    unfold open' opForAggr
    rw [elements_create]
    show getD _ (unpermute _ _ _ _).1 (unpermute _ _ _ _).2.1 (unpermute _ _ _ _).2.2 = _
    rw [prefixPat_args]
    exact hget
  let p : Row3 → Bool := fits (constAt n (o.slots.getD 0 0)) (constAt n (o.slots.getD 1 0)) none
  let T : Row3 → Tup := fun r => names.map (slotValue n (scanSlots .aggr o) (registersAggr o r))
  have hruns := runs_stepAggr (op := opForAggr n o) (out := T) (p := p) hret fun r hr => by
    obtain ⟨k, v, c⟩ := r
    obtain ⟨m1, m2, -⟩ := (hmem k v c).1 hr
    exact check_create ⟨m1, m2, by rw [show (prefix1 _ _ none).2.2 = none from hP.2]; rintro v ⟨⟩⟩
  -- a row of the iterator
  have hout : ∀ r ∈ out, ∃ d ∈ db, r = ((seen o d).1, ((seen o d).2, r.2.2)) ∧ r.2.2 = ((db.map (seen o)).count (seen o d) : Int) ∧ 0 < r.2.2 := by
    rintro ⟨k, v, c⟩ hr
    obtain ⟨-, -, m3, m4⟩ := (hmem k v c).1 hr
    obtain ⟨d, hd, e⟩ := List.mem_map.1 (List.count_pos_iff.1 (show 0 < (db.map (seen o)).count (k, v) by omega))
    exact ⟨d, hd, by rw [e], by rw [e]; exact m3, m4⟩
  have hT : ∀ d c, T ((seen o d).1, ((seen o d).2, c)) = names.map (slotValue n (scanSlots .aggr o) d) := by
    intro d c
    exact List.map_congr_left fun x _ => slotValue_congr (registersAggr_slot o d c) x
  refine ⟨_, ⟨it, hopen, hruns⟩, ?_, ?_, ?_⟩
  · intro r hr
    obtain ⟨r, hr', rfl⟩ := List.mem_map.1 hr
    obtain ⟨d, -, -, -, h⟩ := hout r (List.mem_filter.1 hr').1
    show r.2.2.toNat ≠ 0
    omega
  · intro t
    show bag ((out.filter p).map fun r => (r.2.2.toNat, T r)) t = ((db.filter (matchesSlots n _)).map _).count t
    rw [bag_counts, List.filter_filter]
    let Q : PlanGen.Triple → Bool := fun d => matchesSlots n (scanSlots .aggr o) d && decide (names.map (slotValue n (scanSlots .aggr o) d) = t)
    have hR : ((db.filter (matchesSlots n (scanSlots .aggr o))).map fun d => names.map (slotValue n (scanSlots .aggr o) d)).count t = ((db.filter Q).map (seen o)).length := by
      rw [List.count_eq_length_filter, List.filter_map, List.length_map, List.filter_filter, List.length_map]
      congr 1
      refine List.filter_congr fun d _ => ?_
      rw [Bool.and_comm]
      show (_ && (names.map (slotValue n (scanSlots .aggr o) d) == t)) = (_ && decide (names.map (slotValue n (scanSlots .aggr o) d) = t))
      by_cases h : names.map (slotValue n (scanSlots .aggr o) d) = t <;> simp [h]
    rw [hR]
    -- the rows of the iterator with the tuple
    let K := out.filter fun r => decide (T r = t) && p r
    have hK : ∀ r ∈ K, r.2.2.toNat = ((db.filter Q).map (seen o)).count (r.1, r.2.1) := by
      intro r hr
      obtain ⟨hr, hq⟩ := List.mem_filter.1 hr
      obtain ⟨d, hd, e1, e2, -⟩ := hout r hr
      have hQ : Q d = true := by
        rw [Bool.and_eq_true] at hq ⊢
        rw [e1] at hq
        exact ⟨by rw [← fits_seen (o := o) r.2.2]; exact hq.2, by have := hq.1; rw [hT] at this; exact this⟩
      have e3 : (r.1, r.2.1) = seen o d := by rw [e1]
      rw [e3, show r.2.2.toNat = (db.map (seen o)).count (seen o d) by omega]
      rw [List.count_eq_length_filter, List.count_eq_length_filter, List.filter_map, List.filter_map, List.length_map, List.length_map, List.filter_filter]
      congr 1
      refine List.filter_congr fun e _ => ?_
      show (seen o e == seen o d) = ((seen o e == seen o d) && Q e)
      by_cases h : seen o e = seen o d
      · have : Q e = Q d := by
          have hs : ∀ s ∈ scanSlots .aggr o, e.slot s = d.slot s := by
            intro s hs
            rw [← registersAggr_slot o e 0 s hs, ← registersAggr_slot o d 0 s hs, h]
          show (_ && _) = (_ && _)
          rw [matchesSlots_congr hs, List.map_congr_left fun x _ => slotValue_congr hs x]
        rw [this, hQ, Bool.and_true]
      · simp [h]
    have hnd : (K.map fun r => (r.1, r.2.1)).Nodup := by
      rw [List.Nodup, List.pairwise_map]
      refine (hsort.filter _).imp fun h e => ?_
      rw [Prod.mk.injEq] at e
      simp only [Row3.lt2] at h
      omega
    have hcov : ∀ y ∈ (db.filter Q).map (seen o), y ∈ K.map fun r => (r.1, r.2.1) := by
      intro y hy
      obtain ⟨d, hd, rfl⟩ := List.mem_map.1 hy
      obtain ⟨hd, hQ⟩ := List.mem_filter.1 hd
      rw [Bool.and_eq_true] at hQ
      have hpos : 0 < (db.map (seen o)).count (seen o d) := List.count_pos_iff.2 (List.mem_map.2 ⟨d, hd, rfl⟩)
      let c : Int := ((db.map (seen o)).count (seen o d) : Int)
      have hf : fits (constAt n (o.slots.getD 0 0)) (constAt n (o.slots.getD 1 0)) none ((seen o d).1, ((seen o d).2, c)) = true := by
        rw [fits_seen]; exact hQ.1
      refine List.mem_map.2 ⟨((seen o d).1, ((seen o d).2, c)), List.mem_filter.2 ⟨(hmem _ _ _).2 ?_, ?_⟩, rfl⟩
      · refine ⟨?_, ?_, rfl, by show (0 : Int) < ((db.map (seen o)).count (seen o d) : Int); omega⟩
        · revert hf
          show _ → ∀ v ∈ (prefix1 _ _ _).1.map Int.ofNat, _
          generalize constAt n (o.slots.getD 0 0) = a
          generalize constAt n (o.slots.getD 1 0) = b
          cases a <;> cases b <;> simp [prefix1, fits] <;> intros <;> simp_all
        · revert hf
          show _ → ∀ v ∈ (prefix1 _ _ _).2.1.map Int.ofNat, _
          generalize constAt n (o.slots.getD 0 0) = a
          generalize constAt n (o.slots.getD 1 0) = b
          cases a <;> cases b <;> simp [prefix1, fits] <;> intros <;> simp_all
      · rw [Bool.and_eq_true]
        exact ⟨by rw [hT]; exact hQ.2, hf⟩
    rw [← sum_count hnd hcov, List.map_map]
    exact congrArg List.sum (List.map_congr_left (l := K) fun r hr => hK r hr)
  · intro x hx hord
    rw [List.pairwise_map]
    have hord : (scanSlots .aggr o).findSome? n.varAt = some x := by
      unfold scanOrdering at hord
      split at hord
      · cases hord
      · exact hord
    refine (hsort.filter p).imp_of_mem fun ha hb h => ?_
    obtain ⟨ha, pa⟩ := List.mem_filter.1 ha
    obtain ⟨hb, pb⟩ := List.mem_filter.1 hb
    obtain ⟨d, _, e1, -⟩ := hout _ ha
    obtain ⟨e, _, e2, -⟩ := hout _ hb
    show look names (T _) x ≤ look names (T _) x
    rw [e1, e2] at h ⊢
    rw [e1] at pa
    rw [e2] at pb
    rw [hT, hT, look_map' hx, look_map' hx]
    exact first_le2 hn (by rw [← fits_seen]; exact pa) (by rw [← fits_seen]; exact pb) h hord

theorem returnsAggr_unique {getD : Nat → Int → Int → Int → QRes} {n : Node} {o : Ord} {names : List Nat} {rows rows' : List Row} (h : ReturnsAggr getD n o names rows)
    (h' : ReturnsAggr getD n o names rows') : rows = rows' := by
  obtain ⟨it, h1, h2⟩ := h
  obtain ⟨it', h1', h2'⟩ := h'
  rw [h1] at h1'
  cases h1'
  exact h2.unique h2'

end Trident.Sparql.Scan
