import Verif.Sparql.FullyScan
import Verif.Sparql.AggrScanProofs
/-! # Fully aggregated scans of an index: proofs -/
namespace Trident.Sparql.Scan
open PlanGen

theorem runs_stepFully {it : Obj} {out : Int → Tup} {s : it.σ} {l : List Pair} (hy : Yields it.I s l) :
    Runs (stepFully it out) s (l.map fun r => (r.2.toNat, out r.1)) := by
  induction hy with
  | done h1 => exact .stop (by simp [stepFully, h1])
  | @step s l h1 _ ih =>
    rw [List.map_cons]
    refine .emit ?_ ih
    simp only [stepFully, if_pos h1]

/-- The querier lists the keys of the triples `ts` in each order, each once, in increasing order and with the number of its triples. -/
def AnswersT (getT : Nat → Option Obj) (ts : List Trident.Triple) : Prop :=
  ∀ d : Order, ∃ o out, getT d.idx = some o ∧ o.Returns out ∧ IsTermList (ts.map d.key) out

theorem slots_fully (o : Ord) : scanSlots .fully o = [o.slots.getD 0 0] := by cases o <;> rfl

theorem registers_slot (o : Ord) (t : PlanGen.Triple) : ∀ s ∈ scanSlots .fully o, (registers o ((perm o).key (cast t), (0, 0))).slot s = t.slot s := by
  cases o <;> (intro s hs; simp only [scanSlots, Kind.width, Ord.slots, List.take_succ_cons, List.take_zero, List.mem_cons, List.not_mem_nil, or_false] at hs; subst hs; rfl)

theorem key_slot (o : Ord) (t : PlanGen.Triple) : (perm o).key (cast t) = (t.slot (o.slots.getD 0 0) : Int) := by cases o <;> rfl

theorem bag_fully (l : List Pair) (f : Int → Tup) (t : Tup) :
    bag (l.map fun r => ((r.2.toNat, f r.1) : Row)) t = ((l.filter fun r => f r.1 = t).map fun r => r.2.toNat).sum := by
  induction l with
  | nil => rfl
  | cons a l ih =>
    rw [List.map_cons, bag_cons, ih]
    by_cases h : f a.1 = t
    · rw [if_pos h, List.filter_cons_of_pos (by simpa using h), List.map_cons, List.sum_cons]
    · rw [if_neg h, List.filter_cons_of_neg (by simpa using h), Nat.zero_add]

theorem scan_rows_fully {getT : Nat → Option Obj} {db : List PlanGen.Triple} (ha : AnswersT getT (db.map cast)) (q : Query) (o : Ord) (i : Nat) (hn : (q.node i).vars.Nodup)
    (hs : Starts q .fully o false i) (names : List Nat) : ∃ rows, ReturnsFully getT (q.node i) o names rows ∧ ScanRows db q .fully o false i names rows := by
  let n := q.node i
  obtain ⟨it, out, hget, hret, hlist⟩ := ha (perm o)
  have hvar : ∃ x, n.varAt (o.slots.getD 0 0) = some x := by
    have := (hs rfl).2
    rw [slots_fully] at this
    cases hv : n.varAt (o.slots.getD 0 0) with
    | some x => exact ⟨x, rfl⟩
    | none => exact absurd (by rw [List.filterMap_cons, show (q.node i).varAt _ = none from hv]; rfl) this
  obtain ⟨y, hy⟩ := hvar
  have hslot : n.slot (o.slots.getD 0 0) = .var y := varAt_slot.1 hy
  have hc : constAt n (o.slots.getD 0 0) = none := by unfold constAt; rw [hslot]
  let T : Int → Tup := fun k => names.map (slotValue n (scanSlots .fully o) (registers o (k, (0, 0))))
  have hT : ∀ d, T ((perm o).key (cast d)) = names.map (slotValue n (scanSlots .fully o) d) := by
    intro d
    exact List.map_congr_left fun x _ => slotValue_congr (registers_slot o d) x
  have hmatch : ∀ d, matchesSlots n (scanSlots .fully o) d = true := by
    intro d
    rw [slots_fully, matchesSlots, List.all_cons, List.all_nil, hslot]
    rfl
  obtain ⟨l1, l2, l3⟩ := hlist
  rw [List.map_map] at l2 l3
  have hkey : ∀ r ∈ out, ∃ d ∈ db, r.1 = (perm o).key (cast d) := by
    intro r hr
    obtain ⟨d, hd, e⟩ := List.mem_map.1 ((l2 r.1).1 (List.mem_map.2 ⟨r, hr, rfl⟩))
    exact ⟨d, hd, e.symm⟩
  refine ⟨_, ⟨it, hc, hget, runs_stepFully hret⟩, ?_, ?_, ?_⟩
  · intro r hr
    obtain ⟨r, hr', rfl⟩ := List.mem_map.1 hr
    have h1 := l3 r hr'
    have h2 := List.count_pos_iff.2 ((l2 r.1).1 (List.mem_map.2 ⟨r, hr', rfl⟩))
    show r.2.toNat ≠ 0
    omega
  · intro t
    show bag (out.map fun r => (r.2.toNat, T r.1)) t = ((db.filter (matchesSlots n _)).map _).count t
    rw [bag_fully, List.filter_eq_self.2 fun d _ => hmatch d]
    let Q : PlanGen.Triple → Bool := fun d => decide (names.map (slotValue n (scanSlots .fully o) d) = t)
    let f : PlanGen.Triple → Int := fun d => (perm o).key (cast d)
    have hR : (db.map fun d => names.map (slotValue n (scanSlots .fully o) d)).count t = ((db.filter Q).map f).length := by
      rw [List.count_eq_length_filter, List.filter_map, List.length_map, List.length_map]
      congr 1
      refine List.filter_congr fun d _ => ?_
      show (names.map (slotValue n (scanSlots .fully o) d) == t) = decide (names.map (slotValue n (scanSlots .fully o) d) = t)
      by_cases h : names.map (slotValue n (scanSlots .fully o) d) = t <;> simp [h]
    rw [hR]
    let K := out.filter fun r => decide (T r.1 = t)
    have hK : ∀ r ∈ K, r.2.toNat = ((db.filter Q).map f).count r.1 := by
      intro r hr
      obtain ⟨hr, hq⟩ := List.mem_filter.1 hr
      obtain ⟨d, hd, e1⟩ := hkey r hr
      have e2 := l3 r hr
      rw [show r.2.toNat = (db.map f).count r.1 from by show _ = (db.map (Order.key (perm o) ∘ cast)).count r.1; omega]
      rw [List.count_eq_length_filter, List.count_eq_length_filter, List.filter_map, List.filter_map, List.length_map, List.length_map, List.filter_filter]
      congr 1
      refine List.filter_congr fun e _ => ?_
      show (f e == r.1) = ((f e == r.1) && Q e)
      by_cases h : f e = r.1
      · have : Q e = true := by
          show decide (names.map (slotValue n (scanSlots .fully o) e) = t) = true
          rw [← hT, show (perm o).key (cast e) = r.1 from h]
          exact hq
        rw [this, Bool.and_true]
      · simp [h]
    have hnd : (K.map fun r => r.1).Nodup := by
      rw [List.Nodup, List.pairwise_map]
      exact ((List.pairwise_map.1 l1).filter _).imp fun h e => by omega
    have hcov : ∀ y ∈ (db.filter Q).map f, y ∈ K.map fun r => r.1 := by
      intro y hy
      obtain ⟨d, hd, rfl⟩ := List.mem_map.1 hy
      obtain ⟨hd, hQ⟩ := List.mem_filter.1 hd
      obtain ⟨r, hr, e⟩ := List.mem_map.1 ((l2 (f d)).2 (List.mem_map.2 ⟨d, hd, rfl⟩))
      refine List.mem_map.2 ⟨r, List.mem_filter.2 ⟨hr, ?_⟩, e⟩
      rw [e]
      show decide (T ((perm o).key (cast d)) = t) = true
      rw [hT]
      exact hQ
    rw [← sum_count hnd hcov, List.map_map]
    exact congrArg List.sum (List.map_congr_left (l := K) fun r hr => hK r hr)
  · intro x hx hord
    rw [List.pairwise_map]
    have hord : n.varAt (o.slots.getD 0 0) = some x := by
      unfold scanOrdering at hord
      rw [if_neg (by decide), slots_fully, List.findSome?_cons, show (q.node i).varAt _ = some y from hy] at hord
      rw [hy]; exact hord
    refine (List.pairwise_map.1 l1).imp_of_mem fun ha hb h => ?_
    obtain ⟨d, _, e1⟩ := hkey _ ha
    obtain ⟨e, _, e2⟩ := hkey _ hb
    show look names (T _) x ≤ look names (T _) x
    rw [e1, e2, key_slot, key_slot] at h
    have h0 : o.slots.getD 0 0 ∈ scanSlots .fully o := by cases o <;> decide
    have hlt : o.slots.getD 0 0 < 3 := by cases o <;> decide
    rw [e1, e2, hT, hT, look_map' hx, look_map' hx, slotValue_eq hn hlt h0 hord, slotValue_eq hn hlt h0 hord]
    omega

theorem returnsFully_unique {getT : Nat → Option Obj} {n : Node} {o : Ord} {names : List Nat} {rows rows' : List Row} (h : ReturnsFully getT n o names rows)
    (h' : ReturnsFully getT n o names rows') : rows = rows' := by
  obtain ⟨it, _, h1, h2⟩ := h
  obtain ⟨it', _, h1', h2'⟩ := h'
  rw [h1] at h1'
  cases h1'
  exact h2.unique h2'

end Trident.Sparql.Scan
