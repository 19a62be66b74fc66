import Verif.Sparql.IndexScan
import Verif.Sparql.PlanRows
import Verif.Join.ScanProofs
/-! # Scans of an index: proofs -/
namespace Trident.Sparql.Scan
open PlanGen

/-- The triple with its values as numbers of the querier. -/
def cast (t : PlanGen.Triple) : Trident.Triple := ⟨t.1, t.2.1, t.2.2⟩

theorem cast_inj {a b : PlanGen.Triple} (h : cast a = cast b) : a = b := by
  simp only [cast, Trident.Triple.mk.injEq] at h
  obtain ⟨h1, h2, h3⟩ := h
  exact Prod.ext (by omega) (Prod.ext (by omega) (by omega))

theorem registers_row (o : Ord) (t : PlanGen.Triple) : registers o ((perm o).row (cast t)) = t := by cases o <;> rfl

theorem row_slots (o : Ord) (t : PlanGen.Triple) :
    (perm o).row (cast t) = ((t.slot (o.slots.getD 0 0) : Int), (t.slot (o.slots.getD 1 0) : Int), (t.slot (o.slots.getD 2 0) : Int)) := by cases o <;> rfl

/-- The pattern with these values in the order. -/
def prefixPat (d : Order) (a b c : Option Int) : Pattern :=
  match d with
  | .spo => ⟨a, b, c⟩
  | .sop => ⟨a, c, b⟩
  | .pos => ⟨c, a, b⟩
  | .pso => ⟨b, a, c⟩
  | .osp => ⟨b, c, a⟩
  | .ops => ⟨c, b, a⟩

theorem prefixPat_at (d : Order) (a b c : Option Int) :
    (prefixPat d a b c).at d.positions.1 = a ∧ (prefixPat d a b c).at d.positions.2.1 = b ∧ (prefixPat d a b c).at d.positions.2.2 = c := by
  cases d <;> exact ⟨rfl, rfl, rfl⟩

theorem prefixPat_args (d : Order) (a b c : Option Int) :
    unpermute d.idx (argOfPos a) (argOfPos b) (argOfPos c) = (argOfPos (prefixPat d a b c).s, argOfPos (prefixPat d a b c).p, argOfPos (prefixPat d a b c).o) := by
  cases d <;> rfl

theorem prefixPat_matches (d : Order) (a b c : Option Int) (t : Trident.Triple) :
    (prefixPat d a b c).Matches t ↔ (∀ v ∈ a, (d.row t).1 = v) ∧ (∀ v ∈ b, (d.row t).2.1 = v) ∧ ∀ v ∈ c, (d.row t).2.2 = v := by
  constructor
  · intro h
    have e := prefixPat_at d a b c
    refine ⟨fun v hv => h d.positions.1 v (by rw [e.1]; exact hv), fun v hv => h d.positions.2.1 v (by rw [e.2.1]; exact hv), fun v hv => h d.positions.2.2 v (by rw [e.2.2]; exact hv)⟩
  · rintro ⟨h1, h2, h3⟩ x v hv
    cases d <;> cases x <;> first | exact h1 v hv | exact h2 v hv | exact h3 v hv

theorem prefixPat_wf {d : Order} {a b c : Option Nat} : (prefixPat d (a.map Int.ofNat) (b.map Int.ofNat) (c.map Int.ofNat)).Wf := by
  have : ∀ (a : Option Nat), ∀ v ∈ a.map Int.ofNat, (0 : Int) ≤ v := by
    intro a v hv
    obtain ⟨n, _, rfl⟩ := Option.map_eq_some_iff.1 hv
    exact Int.natCast_nonneg n
  intro x v hv
  cases d <;> cases x <;> exact this _ v hv

/-- The constants that the iterator is asked for: those before the first variable. -/
def prefix1 : Option Nat → Option Nat → Option Nat → Option Nat × Option Nat × Option Nat
  | none, _, _ => (none, none, none)
  | some a, none, _ => (some a, none, none)
  | some a, some b, none => (some a, some b, none)
  | some a, some b, some c => (some a, some b, some c)

theorem elements_create (a b c : Option Nat) : (create a b c).elements =
    (argOfPos ((prefix1 a b c).1.map Int.ofNat), argOfPos ((prefix1 a b c).2.1.map Int.ofNat), argOfPos ((prefix1 a b c).2.2.map Int.ofNat)) := by
  cases a <;> cases b <;> cases c <;> rfl

/-- The row has the constants. -/
def fits (a b c : Option Nat) (r : Row3) : Bool :=
  (match a with | none => true | some a => decide (r.1 = a)) && (match b with | none => true | some b => decide (r.2.1 = b)) &&
    (match c with | none => true | some c => decide (r.2.2 = c))

theorem check_create {a b c : Option Nat} {r : Row3}
    (h : (∀ v ∈ (prefix1 a b c).1.map Int.ofNat, r.1 = v) ∧ (∀ v ∈ (prefix1 a b c).2.1.map Int.ofNat, r.2.1 = v) ∧ ∀ v ∈ (prefix1 a b c).2.2.map Int.ofNat, r.2.2 = v) :
    (create a b c).check r = if fits a b c r then .row else .skip := by
  obtain ⟨h1, h2, h3⟩ := h
  cases a with
  | none =>
    cases b with
    | none =>
      cases c with
      | none => rfl
      | some c => by_cases h : r.2.2 = c <;> simp [create, Op.check, fits, h]
    | some b =>
      cases c with
      | none => by_cases h : r.2.1 = b <;> simp [create, Op.check, fits, h]
      | some c => by_cases h : r.2.1 = b <;> by_cases h' : r.2.2 = c <;> simp [create, Op.check, fits, h, h']
  | some a =>
    have e1 : r.1 = a := h1 a (by cases b <;> cases c <;> rfl)
    cases b with
    | none =>
      cases c with
      | none => simp [create, Op.check, fits, e1]
      | some c => by_cases h : r.2.2 = c <;> simp [create, Op.check, fits, e1, h]
    | some b =>
      have e2 : r.2.1 = b := h2 b (by cases c <;> rfl)
      cases c with
      | none => simp [create, Op.check, fits, e1, e2]
      | some c =>
        have e3 : r.2.2 = c := h3 c rfl
        simp [create, Op.check, fits, e1, e2, e3]

theorem runs_step {it : Obj3} {op : Op} {out : Row3 → Tup} {p : Row3 → Bool} {s : it.σ} {l : List Row3} (hy : Yields it.I s l)
    (h : ∀ r ∈ l, op.check r = if p r then .row else .skip) : Runs (step it op out) s ((l.filter p).map fun r => (1, out r)) := by
  induction hy with
  | done h1 => exact .stop (by simp [step, h1])
  | @step s l h1 _ ih =>
    have hc := h _ (List.mem_cons_self ..)
    have ih := ih fun r hr => h r (List.mem_cons_of_mem _ hr)
    cases hp : p (it.I.val (it.I.next (it.I.hasNext s).2)) with
    | true =>
      rw [hp] at hc
      rw [List.filter_cons_of_pos hp, List.map_cons]
      refine .emit ?_ ih
      simp only [step, if_pos h1, hc, if_true]
    | false =>
      rw [hp] at hc
      rw [List.filter_cons_of_neg (by simp [hp])]
      refine .go ?_ ih
      simp [step, if_pos h1, hc]

theorem fits_row {n : Node} {o : Ord} {t : PlanGen.Triple} :
    fits (constAt n (o.slots.getD 0 0)) (constAt n (o.slots.getD 1 0)) (constAt n (o.slots.getD 2 0)) ((perm o).row (cast t)) = matchesSlots n o.slots t := by
  rw [row_slots]
  have hs : o.slots = [o.slots.getD 0 0, o.slots.getD 1 0, o.slots.getD 2 0] := by cases o <;> rfl
  have key : ∀ s, (match constAt n s with | none => true | some a => decide ((t.slot s : Int) = a)) =
      (match n.slot s with | .const k => t.slot s == k | .var _ => true) := by
    intro s
    unfold constAt
    cases n.slot s with
    | const k =>
      show decide ((t.slot s : Int) = (k : Int)) = (t.slot s == k)
      by_cases h : t.slot s = k
      · simp [h]
      · have : ¬ ((t.slot s : Int) = (k : Int)) := by omega
        simp [h, this]
    | var _ => rfl
  rw [matchesSlots]
  conv => rhs; rw [hs]
  simp only [List.all_cons, List.all_nil, Bool.and_true, fits]
  rw [key, key, key]
  exact Bool.and_assoc _ _ _

theorem bag_ones (l : List Tup) (t : Tup) : bag (l.map fun t => ((1, t) : Row)) t = l.count t := by
  induction l with
  | nil => rfl
  | cons a l ih => rw [List.map_cons, bag_cons, ih, List.count_cons]; by_cases h : a = t <;> simp [h] <;> omega

/-- The graph of the querier is the list of triples. -/
structure Stores (G : Trident.Triple → Prop) (db : List PlanGen.Triple) : Prop where
  nodup : db.Nodup
  mem : ∀ t, G t ↔ ∃ d ∈ db, t = cast d

theorem map_registers {l : List Row3} {db : List PlanGen.Triple} {o : Ord} (hl : ∀ r, r ∈ l ↔ ∃ d ∈ db, r = (perm o).row (cast d)) :
    ∀ r ∈ l, r = (perm o).row (cast (registers o r)) := by
  intro r hr
  obtain ⟨d, _, rfl⟩ := (hl r).1 hr
  rw [registers_row]

theorem row3_lt_ne {a b : Row3} (h : Row3.lt a b) : a ≠ b := by
  rintro rfl
  rcases h with h | ⟨_, h⟩
  · omega
  · rcases h with h | ⟨_, h⟩ <;> omega

theorem row3_lt_slots {o : Ord} {d e : PlanGen.Triple} (h : Row3.lt ((perm o).row (cast d)) ((perm o).row (cast e))) :
    d.slot (o.slots.getD 0 0) < e.slot (o.slots.getD 0 0) ∨ (d.slot (o.slots.getD 0 0) = e.slot (o.slots.getD 0 0) ∧
      (d.slot (o.slots.getD 1 0) < e.slot (o.slots.getD 1 0) ∨ (d.slot (o.slots.getD 1 0) = e.slot (o.slots.getD 1 0) ∧ d.slot (o.slots.getD 2 0) < e.slot (o.slots.getD 2 0)))) := by
  rw [row_slots, row_slots] at h
  simp only [Row3.lt, Pair.lt] at h
  omega

/-- A triple that is found has the constants. -/
theorem matches_slot {n : Node} {slots : List Nat} {d : PlanGen.Triple} (h : matchesSlots n slots d = true) {s : Nat} (hs : s ∈ slots) (hv : n.varAt s = none) :
    n.slot s = .const (d.slot s) := by
  have := List.all_eq_true.1 h s hs
  unfold Node.varAt at hv
  cases he : n.slot s with
  | const k =>
    rw [he] at this
    rw [show d.slot s = k by simpa using this]
  | var x => rw [he] at hv; cases hv

/-- The first variable of an order does not decrease, if no variable is repeated. -/
theorem first_le {n : Node} {o : Ord} (hn : n.vars.Nodup) {d e : PlanGen.Triple} (hd : matchesSlots n o.slots d = true) (he : matchesSlots n o.slots e = true)
    (h : Row3.lt ((perm o).row (cast d)) ((perm o).row (cast e))) {x : Nat} (hx : o.slots.findSome? n.varAt = some x) : slotValue n o.slots d x ≤ slotValue n o.slots e x := by
  have hs : o.slots = [o.slots.getD 0 0, o.slots.getD 1 0, o.slots.getD 2 0] := by cases o <;> rfl
  have hlt : ∀ s ∈ o.slots, s < 3 := by cases o <;> decide
  have h := row3_lt_slots h
  have h0 : o.slots.getD 0 0 ∈ o.slots := by cases o <;> decide
  have h1 : o.slots.getD 1 0 ∈ o.slots := by cases o <;> decide
  have h2 : o.slots.getD 2 0 ∈ o.slots := by cases o <;> decide
  have eqs : ∀ s ∈ o.slots, n.varAt s = none → d.slot s = e.slot s := by
    intro s hs hv
    have a := matches_slot hd hs hv
    rw [matches_slot he hs hv] at a
    exact (Analysis.PElem.const.inj a).symm
  rw [hs] at hx
  simp only [List.findSome?_cons, List.findSome?_nil] at hx
  cases v0 : n.varAt (o.slots.getD 0 0) with
  | some y =>
    rw [v0] at hx
    cases hx
    rw [slotValue_eq hn (hlt _ h0) h0 v0, slotValue_eq hn (hlt _ h0) h0 v0]
    omega
  | none =>
    rw [v0] at hx
    have e0 := eqs _ h0 v0
    cases v1 : n.varAt (o.slots.getD 1 0) with
    | some y =>
      rw [v1] at hx
      cases hx
      rw [slotValue_eq hn (hlt _ h1) h1 v1, slotValue_eq hn (hlt _ h1) h1 v1]
      omega
    | none =>
      rw [v1] at hx
      have e1 := eqs _ h1 v1
      cases v2 : n.varAt (o.slots.getD 2 0) with
      | some y =>
        rw [v2] at hx
        cases hx
        rw [slotValue_eq hn (hlt _ h2) h2 v2, slotValue_eq hn (hlt _ h2) h2 v2]
        omega
      | none => rw [v2] at hx; cases hx

theorem scan_rows {get : Nat → Int → Int → Int → QRes} {G : Trident.Triple → Prop} (ha : Join.Answers get G) {db : List PlanGen.Triple} (hdb : Stores G db) (q : Query) (o : Ord)
    (free : Bool) (i : Nat) (hn : (q.node i).vars.Nodup) (names : List Nat) :
    ∃ rows, Returns get (q.node i) o names rows ∧ (∀ r ∈ rows, r.1 = 1) ∧ ScanRows db q .full o free i names rows := by
  let n := q.node i
  let P := prefix1 (constAt n (o.slots.getD 0 0)) (constAt n (o.slots.getD 1 0)) (constAt n (o.slots.getD 2 0))
  let pat := prefixPat (perm o) (P.1.map Int.ofNat) (P.2.1.map Int.ofNat) (P.2.2.map Int.ofNat)
  have hat := prefixPat_at (perm o) (P.1.map Int.ofNat) (P.2.1.map Int.ofNat) (P.2.2.map Int.ofNat)
  have hP : (P.2.1.isSome → P.1.isSome) ∧ (P.2.2.isSome → P.2.1.isSome) := by
    show ((prefix1 _ _ _).2.1.isSome → (prefix1 _ _ _).1.isSome) ∧ ((prefix1 _ _ _).2.2.isSome → (prefix1 _ _ _).2.1.isSome)
    generalize constAt n (o.slots.getD 0 0) = a
    generalize constAt n (o.slots.getD 1 0) = b
    generalize constAt n (o.slots.getD 2 0) = c
    cases a <;> cases b <;> cases c <;> simp [prefix1]
  obtain ⟨out, it, hget, hret, hsort, hmem⟩ := ha pat (perm o) prefixPat_wf
    (by show ((prefixPat _ _ _ _).at _).isSome → ((prefixPat _ _ _ _).at _).isSome; rw [hat.1, hat.2.1]; simpa using hP.1)
    (by show ((prefixPat _ _ _ _).at _).isSome → ((prefixPat _ _ _ _).at _).isSome; rw [hat.2.1, hat.2.2]; simpa using hP.2)
  have hopen : open' get o (opFor n o) = .itr it := by
    unfold open' opFor
    rw [elements_create]
    show get _ (unpermute _ _ _ _).1 (unpermute _ _ _ _).2.1 (unpermute _ _ _ _).2.2 = _
    rw [prefixPat_args]
    exact hget
  let p : Row3 → Bool := fits (constAt n (o.slots.getD 0 0)) (constAt n (o.slots.getD 1 0)) (constAt n (o.slots.getD 2 0))
  have hruns := runs_step (op := opFor n o) (out := fun r => names.map (slotValue n o.slots (registers o r))) (p := p) hret fun r hr => by
    obtain ⟨t, _, hm, rfl⟩ := (hmem r).1 hr
    exact check_create ((prefixPat_matches ..).1 hm)
  have hout : ∀ r ∈ out.filter p, ∃ d ∈ db, r = (perm o).row (cast d) ∧ matchesSlots n o.slots d = true := by
    intro r hr
    obtain ⟨hr, hp⟩ := List.mem_filter.1 hr
    obtain ⟨t, hG, _, rfl⟩ := (hmem r).1 hr
    obtain ⟨d, hd, rfl⟩ := (hdb.mem t).1 hG
    refine ⟨d, hd, rfl, ?_⟩
    rw [← fits_row]
    exact hp
  have hperm : ((out.filter p).map (registers o)).Perm (db.filter (matchesSlots n o.slots)) := by
    refine (List.perm_ext_iff_of_nodup ?_ (hdb.nodup.filter _)).2 fun d => ?_
    · rw [List.Nodup, List.pairwise_map]
      refine (hsort.filter p).imp_of_mem fun ha hb h => ?_
      obtain ⟨d, _, rfl, _⟩ := hout _ ha
      obtain ⟨e, _, rfl, _⟩ := hout _ hb
      rw [registers_row, registers_row]
      rintro rfl
      exact row3_lt_ne h rfl
    · rw [List.mem_map, List.mem_filter]
      constructor
      · rintro ⟨r, hr, rfl⟩
        obtain ⟨d, hd, rfl, hm⟩ := hout r hr
        rw [registers_row]
        exact ⟨hd, hm⟩
      · rintro ⟨hd, hm⟩
        refine ⟨(perm o).row (cast d), List.mem_filter.2 ⟨(hmem _).2 ⟨cast d, (hdb.mem _).2 ⟨d, hd, rfl⟩, ?_, rfl⟩, ?_⟩, registers_row o d⟩
        · refine (prefixPat_matches ..).2 ?_
          rw [← fits_row] at hm
          revert hm
          show fits (constAt n (o.slots.getD 0 0)) (constAt n (o.slots.getD 1 0)) (constAt n (o.slots.getD 2 0)) _ = true → _
          generalize (perm o).row (cast d) = r
          show _ → (∀ v ∈ (prefix1 _ _ _).1.map Int.ofNat, _) ∧ (∀ v ∈ (prefix1 _ _ _).2.1.map Int.ofNat, _) ∧ (∀ v ∈ (prefix1 _ _ _).2.2.map Int.ofNat, _)
          generalize constAt n (o.slots.getD 0 0) = a
          generalize constAt n (o.slots.getD 1 0) = b
          generalize constAt n (o.slots.getD 2 0) = c
          cases a <;> cases b <;> cases c <;> simp [prefix1, fits] <;> intros <;> simp_all
        · show fits _ _ _ _ = true
          rw [fits_row]
          exact hm
  refine ⟨_, ⟨it, hopen, hruns⟩, ?_, ?_, ?_, ?_⟩
  · intro r hr
    obtain ⟨_, _, rfl⟩ := List.mem_map.1 hr
    rfl
  · intro r hr
    obtain ⟨_, _, rfl⟩ := List.mem_map.1 hr
    exact Nat.one_ne_zero
  · intro t
    have : ((out.filter p).map fun r => ((1, names.map (slotValue n o.slots (registers o r))) : Row)) =
        (((out.filter p).map (registers o)).map fun d => names.map (slotValue n o.slots d)).map fun t => (1, t) := by simp [List.map_map, Function.comp_def]
    have hk : scanSlots .full o = o.slots := by cases o <;> rfl
    rw [this, bag_ones, hk]
    exact (hperm.map _).count_eq t
  · intro x hx hord
    rw [List.pairwise_map]
    have hord : o.slots.findSome? n.varAt = some x := by
      unfold scanOrdering at hord
      split at hord
      · cases hord
      · have : scanSlots .full o = o.slots := by cases o <;> rfl
        rwa [this] at hord
    refine (hsort.filter p).imp_of_mem fun ha hb h => ?_
    obtain ⟨d, _, rfl, hd⟩ := hout _ ha
    obtain ⟨e, _, rfl, he⟩ := hout _ hb
    show look names (names.map _) x ≤ look names (names.map _) x
    rw [look_map' hx, look_map' hx, registers_row, registers_row]
    exact first_le hn hd he h hord

theorem returns_unique {get : Nat → Int → Int → Int → QRes} {n : Node} {o : Ord} {names : List Nat} {rows rows' : List Row} (h : Returns get n o names rows)
    (h' : Returns get n o names rows') : rows = rows' := by
  obtain ⟨it, h1, h2⟩ := h
  obtain ⟨it', h1', h2'⟩ := h'
  rw [h1] at h1'
  cases h1'
  exact h2.unique h2'

theorem matches_fits {n : Node} (hn : n.vars.Nodup) (o : Ord) (d : PlanGen.Triple) : matchesSlots n o.slots d = Spec.fits (Spec.beside n d) := by
  have hlt : ∀ s, s ∈ o.slots ↔ s < 3 := by
    intro s
    cases o <;> simp only [Ord.slots, List.mem_cons, List.not_mem_nil, or_false] <;> omega
  rw [Bool.eq_iff_iff, fits_iff]
  unfold matchesSlots
  rw [List.all_eq_true]
  constructor
  · intro h
    refine ⟨fun x v hm => ?_, fun k v hm => ?_⟩
    · obtain ⟨s, hs, e⟩ := mem_beside.1 hm
      injection e with e1 e2
      rw [e2]
      exact value_beside hn hs (varAt_slot.2 e1.symm)
    · obtain ⟨s, hs, e⟩ := mem_beside.1 hm
      have := h s ((hlt s).2 hs)
      injection e with e1 e2
      rw [← e1] at this
      rw [e2]
      simpa using this
  · rintro ⟨_, h⟩ s hs
    cases he : n.slot s with
    | const k =>
      have := h k (d.slot s) (mem_beside.2 ⟨s, (hlt s).1 hs, by rw [he]⟩)
      simp [this]
    | var x => rfl

theorem slotValue_value {n : Node} (hn : n.vars.Nodup) (o : Ord) (d : PlanGen.Triple) {x : Nat} (hx : x ∈ n.vars) : slotValue n o.slots d x = (Spec.value (Spec.beside n d) x).getD 0 := by
  have hlt : ∀ s, s < 3 → s ∈ o.slots := by
    intro s
    cases o <;> simp only [Ord.slots, List.mem_cons, List.not_mem_nil, or_false] <;> omega
  obtain ⟨s, hs, hv⟩ := List.mem_filterMap.1 hx
  have hs : s < 3 := by simp at hs; omega
  rw [slotValue_eq hn hs (hlt s hs) hv, value_beside hn hs hv]
  rfl

end Trident.Sparql.Scan
