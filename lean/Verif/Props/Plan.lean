import Verif.Sparql.PlanProofs
import Verif.Sparql.HashRows
import Verif.Sparql.Hint
/-!
# C78: the domains that the operators share do not change the answers of plans of scans and hash joins
-/
namespace Trident.Sparql.Plan
open Domain

/-- The specification: how often the pattern matches under an assignment of values to variables.  A scan matches as often as the row occurs, and a join is a product. -/
def Spec.mult : Plan → (Nat → Nat) → Nat
  | .scan vars rows, σ => bag rows (vars.map σ)
  | .join l _ r _, σ => Spec.mult l σ * Spec.mult r σ

/-- What the code generator guarantees.  Rows of a scan have one value per column, equal for equal variables, and 64 bits.  Both sides of a join pass on
existing columns, start with the join variable and pass on each variable. -/
def Plan.Ok : Plan → Prop
  | .scan vars rows => ∀ r ∈ rows, 0 < r.1 ∧ (∃ σ : Nat → Nat, r.2 = vars.map σ) ∧ ∀ v ∈ r.2, v < 2 ^ 64
  | .join l lc r rc => l.Ok ∧ r.Ok ∧ (∀ i ∈ lc, i < l.vars.length) ∧ (∀ i ∈ rc, i < r.vars.length) ∧
      (∀ x ∈ l.vars, x ∈ pick lc l.vars) ∧ (∀ x ∈ r.vars, x ∈ pick rc r.vars) ∧
      ∃ x, (pick lc l.vars).head? = some x ∧ (pick rc r.vars).head? = some x

/-- What holds of the rows of each operator. -/
def RowOk (vars : List Nat) (r : Row) : Prop := 0 < r.1 ∧ (∃ σ : Nat → Nat, r.2 = vars.map σ) ∧ ∀ v ∈ r.2, v < 2 ^ 64

theorem bag_filter_le (l : List Row) (k : Row → Bool) (t : Tup) : bag (l.filter k) t ≤ bag l t := by
  induction l with
  | nil => exact Nat.le_refl _
  | cons r l ih =>
    rw [List.filter_cons, bag_cons]
    split
    · rw [bag_cons]; omega
    · omega

theorem bag_filter_eq (l : List Row) (k : Row → Bool) (t : Tup) (h : ∀ r ∈ l, r.2 = t → k r = true) : bag (l.filter k) t = bag l t := by
  induction l with
  | nil => rfl
  | cons r l ih =>
    have ih := ih fun x hx => h x (List.mem_cons_of_mem _ hx)
    rw [List.filter_cons, bag_cons]
    split
    · rw [bag_cons, ih]
    · rename_i hk
      rw [if_neg fun e => hk (h r (by simp) e), ih, Nat.zero_add]

theorem bag_pos {l : List Row} {t : Tup} (h : 0 < bag l t) : ∃ r ∈ l, r.2 = t := by
  induction l with
  | nil => cases h
  | cons r l ih =>
    rw [bag_cons] at h
    by_cases e : r.2 = t
    · exact ⟨r, by simp, e⟩
    · rw [if_neg e, Nat.zero_add] at h
      obtain ⟨x, hx, hxt⟩ := ih h
      exact ⟨x, List.mem_cons_of_mem _ hx, hxt⟩

theorem pickRow_ok {c vars : List Nat} {rows : List Row} (hc : ∀ i ∈ c, i < vars.length) (h : ∀ r ∈ rows, RowOk vars r) :
    ∀ r ∈ rows.map (pickRow c), RowOk (pick c vars) r := by
  intro r hr
  obtain ⟨r0, h0, rfl⟩ := List.mem_map.1 hr
  obtain ⟨h1, ⟨σ, h2⟩, h3⟩ := h r0 h0
  refine ⟨h1, ⟨σ, ?_⟩, ?_⟩
  · show pick c r0.2 = _
    rw [h2, pick_map c vars σ hc]
  · intro v hv
    obtain ⟨i, hi, rfl⟩ := List.mem_map.1 hv
    apply h3
    unfold col
    have : i < r0.2.length := by rw [h2, List.length_map]; exact hc i hi
    rw [List.getD_eq_getElem?_getD, List.getElem?_eq_getElem this]
    exact List.getElem_mem this

theorem head_agree {a b : List Nat} {x : Nat} (ha : a.head? = some x) (hb : b.head? = some x) (σ : Nat → Nat) :
    Spec.agree (a.map σ) (b.map σ) = true := by
  match a, b, ha, hb with
  | _ :: _, _ :: _, rfl, rfl => simp [Spec.agree, col]

/-- The invariant of a run: answers of the whole query stay in the domains and are all found, and nothing else is added. -/
theorem run_inv {shared : Nat → Bool} {p : Plan} {D D' : Doms} {out : List Row} (h : Run shared p D out D') (S : (Nat → Nat) → Prop) (hok : p.Ok)
    (hS : ∀ σ, S σ → 0 < Spec.mult p σ) (hD : ∀ σ, S σ → ∀ x, shared x = true → couldQualify (D x) (σ x) = true) :
    (∀ σ, S σ → bag out (p.vars.map σ) = Spec.mult p σ) ∧ (∀ σ, bag out (p.vars.map σ) ≤ Spec.mult p σ) ∧
    (∀ σ, S σ → ∀ x, shared x = true → couldQualify (D' x) (σ x) = true) ∧ (∀ r ∈ out, RowOk p.vars r) := by
  induction h with
  | scan keep hk =>
    refine ⟨?_, ?_, hD, ?_⟩
    · intro σ hσ
      apply bag_filter_eq
      intro r hr e
      apply hk r hr
      rw [e]
      exact qualifies_map shared _ _ σ (hD σ hσ)
    · intro σ
      exact bag_filter_le _ _ _
    · intro r hr
      exact hok r (List.mem_filter.1 hr).1
  | @join l lc r rc D lo D1 ro D3 out wl wr reg0 hl hr hj ihl ihr =>
    obtain ⟨okl, okr, hlc, hrc, hkl, hkr, x, hxl, hxr⟩ := hok
    have hSl : ∀ σ, S σ → 0 < Spec.mult l σ := fun σ hσ => Nat.pos_of_mul_pos_right (hS σ hσ)
    have hSr : ∀ σ, S σ → 0 < Spec.mult r σ := fun σ hσ => Nat.pos_of_mul_pos_left (hS σ hσ)
    obtain ⟨l1, l2, l3, l4⟩ := ihl okl hSl hD
    have hlo : ∀ σ, bag (lo.map (pickRow lc)) ((pick lc l.vars).map σ) = bag lo (l.vars.map σ) :=
      fun σ => bag_pick lc l.vars hlc hkl lo (fun q hq => (l4 q hq).2.1) σ
    have hrestr : ∀ σ, S σ → ∀ x, shared x = true → couldQualify (restricted shared D1 (pick lc l.vars) (lo.map (pickRow lc)) x) (σ x) = true := by
      intro σ hσ
      apply restricted_ok _ _ _ _ _ (l3 σ hσ)
      apply bag_pos
      rw [hlo, l1 σ hσ]
      exact hSl σ hσ
    obtain ⟨r1, r2, r3, r4⟩ := ihr okr hSr hrestr
    have hro : ∀ σ, bag (ro.map (pickRow rc)) ((pick rc r.vars).map σ) = bag ro (r.vars.map σ) :=
      fun σ => bag_pick rc r.vars hrc hkr ro (fun q hq => (r4 q hq).2.1) σ
    have okL := pickRow_ok hlc l4
    have okR := pickRow_ok hrc r4
    have neL : ∀ q ∈ lo.map (pickRow lc), q.2 ≠ [] := by
      intro q hq e
      obtain ⟨σ, hσ⟩ := (okL q hq).2.1
      rw [e] at hσ
      rw [List.map_eq_nil_iff.1 hσ.symm] at hxl
      cases hxl
    have neR : ∀ q ∈ ro.map (pickRow rc), q.2 ≠ [] := by
      intro q hq e
      obtain ⟨σ, hσ⟩ := (okR q hq).2.1
      rw [e] at hσ
      rw [List.map_eq_nil_iff.1 hσ.symm] at hxr
      cases hxr
    have hbag : ∀ t, bag out t = bag (Spec.join ((lo.map (pickRow lc)).filter fun q => qualifies shared D1 (pick lc l.vars) q.2) (ro.map (pickRow rc))) t := by
      obtain ⟨out', e, hb⟩ := Hash.C69_join_domains (qualifies shared D1 (pick lc l.vars)) wl wr reg0 (lo.map (pickRow lc)) (ro.map (pickRow rc)) neL neR
        (fun q hq => (okL q hq).2.2)
      rw [hj] at e
      cases e
      exact hb
    have hprod : ∀ σ, bag (out.filter fun x => consistent (pick lc l.vars ++ pick rc r.vars) x.2) ((pick lc l.vars ++ pick rc r.vars).map σ)
        = (if qualifies shared D1 (pick lc l.vars) ((pick lc l.vars).map σ) = true then bag lo (l.vars.map σ) else 0) * bag ro (r.vars.map σ) := by
      intro σ
      rw [bag_filter, if_pos (consistent_map _ σ), hbag, List.map_append, bag_join _ _ _ _ ?_ (head_agree hxl hxr σ), bag_filter, hlo, hro]
      intro q hq
      obtain ⟨τ, hτ⟩ := (okL q (List.mem_filter.1 hq).1).2.1
      rw [hτ, List.length_map, List.length_map]
    refine ⟨?_, ?_, r3, ?_⟩
    · intro σ hσ
      show bag _ ((pick lc l.vars ++ pick rc r.vars).map σ) = Spec.mult l σ * Spec.mult r σ
      rw [hprod, if_pos (qualifies_map shared D1 _ σ (l3 σ hσ)), l1 σ hσ, r1 σ hσ]
    · intro σ
      show bag _ ((pick lc l.vars ++ pick rc r.vars).map σ) ≤ Spec.mult l σ * Spec.mult r σ
      rw [hprod]
      apply Nat.mul_le_mul _ (r2 σ)
      split
      · exact l2 σ
      · exact Nat.zero_le _
    · intro q hq
      obtain ⟨hq1, hq2⟩ := List.mem_filter.1 hq
      obtain ⟨h0, a, ha, b, hb, e⟩ := Hash.hashJoin_rows _ wl wr reg0 _ _ _ (fun q hq => ⟨(okL q hq).1, neL q hq⟩) (fun q hq => (okR q hq).1) hj q hq1
      refine ⟨h0, ?_, ?_⟩
      · apply exists_assignment _ _ _ hq2
        obtain ⟨σ, hσ⟩ := (okL a ha).2.1
        obtain ⟨τ, hτ⟩ := (okR b hb).2.1
        show _ = (pick lc l.vars ++ pick rc r.vars).length
        rw [e, hσ, hτ, List.length_append, List.length_append, List.length_map, List.length_map]
      · rw [e]
        intro v hv
        rcases List.mem_append.1 hv with hv | hv
        · exact (okL a ha).2.2 v hv
        · exact (okR b hb).2.2 v hv

theorem mult_congr {p : Plan} (hok : p.Ok) {σ τ : Nat → Nat} (h : ∀ x ∈ p.vars, σ x = τ x) : Spec.mult p σ = Spec.mult p τ := by
  induction p with
  | scan vars rows => exact congrArg (bag rows) (List.map_congr_left h)
  | join l lc r rc ihl ihr =>
    obtain ⟨okl, okr, _, _, hkl, hkr, _⟩ := hok
    unfold Spec.mult
    rw [ihl okl fun x hx => h x (List.mem_append_left _ (hkl x hx)), ihr okr fun x hx => h x (List.mem_append_right _ (hkr x hx))]

theorem mult_bits {p : Plan} (hok : p.Ok) {σ : Nat → Nat} (h : 0 < Spec.mult p σ) : ∀ x ∈ p.vars, σ x < 2 ^ 64 := by
  induction p with
  | scan vars rows =>
    obtain ⟨r, hr, e⟩ := bag_pos h
    intro x hx
    apply (hok r hr).2.2
    rw [e]
    exact List.mem_map_of_mem hx
  | join l lc r rc ihl ihr =>
    obtain ⟨okl, okr, hlc, hrc, _⟩ := hok
    have hpick : ∀ (c vars : List Nat), (∀ i ∈ c, i < vars.length) → ∀ x ∈ pick c vars, x ∈ vars := by
      intro c vars hc x hx
      obtain ⟨i, hi, rfl⟩ := List.mem_map.1 hx
      unfold col
      rw [List.getD_eq_getElem?_getD, List.getElem?_eq_getElem (hc i hi)]
      exact List.getElem_mem _
    intro x hx
    rcases List.mem_append.1 hx with hx | hx
    · exact ihl okl (Nat.pos_of_mul_pos_right h) x (hpick _ _ hlc x hx)
    · exact ihr okr (Nat.pos_of_mul_pos_left h) x (hpick _ _ hrc x hx)

/-- **C78 (scans and hash joins; UNION and OPTIONAL are missing, see below).** A plan of scans and hash joins, started with unrestricted domains, returns for each assignment exactly as many rows as the pattern has matches,
and no other row, although scans skip and joins drop whatever the domains exclude. -/
theorem C78_plan_partial (shared : Nat → Bool) (p : Plan) (hok : p.Ok) (out : List Row) (D : Doms) (h : Run shared p start out D) :
    (∀ σ, bag out (p.vars.map σ) = Spec.mult p σ) ∧ ∀ r ∈ out, ∃ σ : Nat → Nat, r.2 = p.vars.map σ := by
  have hv := run_inv h (fun σ => 0 < Spec.mult p σ ∧ ∀ x, σ x < 2 ^ 64) hok (fun σ hσ => hσ.1) (fun σ hσ x _ => C77_start _ (hσ.2 x))
  refine ⟨fun σ => ?_, fun r hr => (hv.2.2.2 r hr).2.1⟩
  rcases Nat.eq_zero_or_pos (Spec.mult p σ) with h0 | h0
  · have := hv.2.1 σ
    omega
  · have hb := mult_bits hok h0
    have hτ : ∀ x ∈ p.vars, σ x = σ x % 2 ^ 64 := fun x hx => (Nat.mod_eq_of_lt (hb x hx)).symm
    have hm := mult_congr hok hτ
    rw [List.map_congr_left hτ, hm]
    exact hv.1 (fun x => σ x % 2 ^ 64) ⟨by rw [← hm]; exact h0, fun x => Nat.mod_lt _ (Nat.two_pow_pos 64)⟩

/-- The order of joins, which side is hashed and which values a scan skips do not matter: two plans for the same pattern have the same answers. -/
theorem C78_same (shared : Nat → Bool) (p q : Plan) (hp : p.Ok) (hq : q.Ok) (hpat : ∀ σ, Spec.mult p σ = Spec.mult q σ)
    (o1 o2 : List Row) (D1 D2 : Doms) (h1 : Run shared p start o1 D1) (h2 : Run shared q start o2 D2) (σ : Nat → Nat) :
    bag o1 (p.vars.map σ) = bag o2 (q.vars.map σ) := by
  rw [(C78_plan_partial shared p hp o1 D1 h1).1, (C78_plan_partial shared q hq o2 D2 h2).1, hpat]

/-- Each plan has a run: the hash tables always find a place, and scans may return all their rows. -/
theorem C78_runs (shared : Nat → Bool) (p : Plan) (hok : p.Ok) (D : Doms) : ∃ out D', Run shared p D out D' := by
  suffices hm : ∃ out D', Run shared p D out D' ∧ ∀ r ∈ out, RowOk p.vars r from ⟨hm.choose, hm.choose_spec.choose, hm.choose_spec.choose_spec.1⟩
  induction p generalizing D with
  | scan vars rows => exact ⟨_, _, Run.scan (fun _ => true) (fun _ _ _ => rfl), fun r hr => hok r (List.mem_filter.1 hr).1⟩
  | join l lc r rc ihl ihr =>
    have hok' := hok
    obtain ⟨okl, okr, hlc, hrc, hkl, hkr, x, hxl, hxr⟩ := hok
    obtain ⟨lo, D1, hl, hlo⟩ := ihl okl D
    obtain ⟨ro, D3, hr, hro⟩ := ihr okr (restricted shared D1 (pick lc l.vars) (lo.map (pickRow lc)))
    have ne : ∀ (c vars : List Nat) (rows : List Row), (pick c vars).head? = some x → (∀ q ∈ rows, RowOk (pick c vars) q) → ∀ q ∈ rows, q.2 ≠ [] := by
      intro c vars rows hx h q hq e
      obtain ⟨σ, hσ⟩ := (h q hq).2.1
      rw [e] at hσ
      rw [List.map_eq_nil_iff.1 hσ.symm] at hx
      cases hx
    obtain ⟨out, e, _⟩ := Hash.C69_join_domains (qualifies shared D1 (pick lc l.vars)) 0 0 0 (lo.map (pickRow lc)) (ro.map (pickRow rc))
      (ne _ _ _ hxl (pickRow_ok hlc hlo)) (ne _ _ _ hxr (pickRow_ok hrc hro)) (fun q hq => (pickRow_ok hlc hlo q hq).2.2)
    have hrun := Run.join 0 0 0 hl hr e
    exact ⟨_, _, hrun, (run_inv hrun (fun _ => False) hok' (fun _ h => h.elim) (fun _ h => h.elim)).2.2.2⟩

/-! ## Examples -/

/-- `?0 p ?1 . ?1 q ?2`, hashed by `?1`. -/
def exPlan : Plan :=
  .join (.scan [0, 1] [(1, [5, 100]), (1, [6, 101]), (1, [7, 101])]) [1, 0] (.scan [1, 2] [(1, [100, 9]), (1, [101, 8]), (1, [20000, 4])]) [0, 1]

example : exPlan.Ok := by
  have row : ∀ (a b x y : Nat), x ≠ y → a < 2 ^ 64 → b < 2 ^ 64 → (0 < 1 ∧ (∃ σ : Nat → Nat, [a, b] = [x, y].map σ) ∧ ∀ v ∈ [a, b], v < 2 ^ 64) := by
    intro a b x y h ha hb
    refine ⟨by omega, ⟨fun z => if z = x then a else b, by simp [h.symm]⟩, ?_⟩
    intro v hv
    rcases List.mem_cons.1 hv with rfl | hv
    · exact ha
    · rw [List.mem_singleton.1 hv]; exact hb
  refine ⟨?_, ?_, by decide, by decide, by decide, by decide, 1, rfl, rfl⟩
  · intro r hr
    simp only [List.mem_cons, List.not_mem_nil, or_false] at hr
    rcases hr with rfl | rfl | rfl <;> exact row _ _ 0 1 (by decide) (by decide) (by decide)
  · intro r hr
    simp only [List.mem_cons, List.not_mem_nil, or_false] at hr
    rcases hr with rfl | rfl | rfl <;> exact row _ _ 1 2 (by decide) (by decide) (by decide)

/-- The join has three rows, and it restricts the domain of `?1`: 20000 is excluded from now on. -/
example : (exec (· == 1) exPlan start).map (·.1) = some [(1, [100, 5, 100, 9]), (1, [101, 7, 101, 8]), (1, [101, 6, 101, 8])]
    ∧ (exec (· == 1) exPlan start).map (fun a => couldQualify (a.2 1) 20000) = some false := by
  decide +kernel

/-- What `exec` computes is a run. -/
theorem exec_run {shared : Nat → Bool} {p : Plan} {D D' : Doms} {out : List Row} (h : exec shared p D = some (out, D')) : Run shared p D out D' := by
  induction p generalizing D D' out with
  | scan vars rows =>
    cases h
    have := Run.scan (shared := shared) (vars := vars) (rows := rows) (D := D) (fun _ => true) (fun _ _ _ => rfl)
    rwa [List.filter_eq_self.2 fun _ _ => rfl] at this
  | join l lc r rc ihl ihr =>
    rw [exec] at h
    obtain ⟨⟨lo, D1⟩, h1, h⟩ := Option.bind_eq_some_iff.1 h
    obtain ⟨⟨ro, D3⟩, h2, h⟩ := Option.bind_eq_some_iff.1 h
    obtain ⟨o, h3, h⟩ := Option.map_eq_some_iff.1 h
    cases h
    exact Run.join _ _ _ (ihl h1) (ihr h2) h3

/-! ## The other operators share the domains too

A `UNION` reads its branches one after the other (/repo/rdf3x/src/rts/Union.cpp:27-73), and the domains that the first branch leaves are those that the second
one starts with. -/

/-- `?1 r ?3 . ?1 s ?4`, the second branch of a `UNION`. -/
def exBranch : Plan := .join (.scan [1, 3] [(1, [20000, 4])]) [0, 1] (.scan [1, 4] [(1, [20000, 9])]) [0, 1]

example : exBranch.Ok := by
  have row : ∀ (a b x y : Nat), x ≠ y → a < 2 ^ 64 → b < 2 ^ 64 → (0 < 1 ∧ (∃ σ : Nat → Nat, [a, b] = [x, y].map σ) ∧ ∀ v ∈ [a, b], v < 2 ^ 64) := by
    intro a b x y h ha hb
    refine ⟨by omega, ⟨fun z => if z = x then a else b, by simp [h.symm]⟩, ?_⟩
    intro v hv
    rcases List.mem_cons.1 hv with rfl | hv
    · exact ha
    · rw [List.mem_singleton.1 hv]; exact hb
  refine ⟨?_, ?_, by decide, by decide, by decide, by decide, 1, rfl, rfl⟩
  · intro r hr
    rw [List.mem_singleton.1 hr]; exact row _ _ 1 3 (by decide) (by decide) (by decide)
  · intro r hr
    rw [List.mem_singleton.1 hr]; exact row _ _ 1 4 (by decide) (by decide) (by decide)

/-- **C78 is false for `UNION`.** In `{ ?0 p ?1 . ?1 q ?2 } UNION { ?1 r ?3 . ?1 s ?4 }`, if both branches are hash joins, the second branch has an answer and
returns nothing: the join of the first branch removed the value from the domain of `?1`. -/
theorem C78_union_violated : ∃ out1 D1, Run (· == 1) exPlan start out1 D1 ∧ (∃ σ, Spec.mult exBranch σ = 1) ∧ Run (· == 1) exBranch D1 [] (restricted (· == 1) D1 [1, 3] [(1, [20000, 4])]) := by
  have h : (exec (· == 1) exPlan start).isSome = true := by decide +kernel
  obtain ⟨⟨out, D1⟩, hx⟩ := Option.isSome_iff_exists.1 h
  refine ⟨out, D1, exec_run hx, ⟨fun x => if x = 1 then 20000 else if x = 3 then 4 else 9, by decide +kernel⟩, ?_⟩
  apply exec_run
  have hq : couldQualify (D1 1) 20000 = false := by
    have h2 : (exec (· == 1) exPlan start).map (fun a => couldQualify (a.2 1) 20000) = some false := by decide +kernel
    rw [hx] at h2
    exact Option.some.inj h2
  have ok : qualifies (· == 1) D1 [1, 3] [20000, 4] = false := by
    simp [qualifies, hq]
  have hb : Hash.hashJoin (qualifies (· == 1) D1 [1, 3]) false false 1 1 0 [(1, [20000, 4])] [(1, [20000, 9])] = some [] := by
    unfold Hash.hashJoin
    rw [Hash.build_filter]
    have : ([(1, [20000, 4])] : List Row).filter (fun r => qualifies (· == 1) D1 [1, 3] r.2) = [] := by
      simp [ok]
    rw [this]
    decide +kernel
  have e : exec (· == 1) exBranch D1 = (Hash.hashJoin (qualifies (· == 1) D1 [1, 3]) false false 1 1 0 [(1, [20000, 4])] [(1, [20000, 9])]).map
      fun out => (out.filter fun x => consistent [1, 3, 1, 4] x.2, restricted (· == 1) D1 [1, 3] [(1, [20000, 4])]) := rfl
  rw [e, hb]
  rfl

/-- **C78 is false for `OPTIONAL`.** When the optional part is hashed, the domains are restricted to its values, and a scan of the main pattern then skips the rows
without a partner: here `?0 p ?1 OPTIONAL { ?1 q ?2 }` loses the row with `?1 = 20000`. -/
theorem C78_optional_violated : ∃ out, Run (· == 1) (.scan [0, 1] [(1, [5, 100]), (1, [6, 20000])])
      (restricted (· == 1) start [1, 2] [(1, [100, 9])]) out (restricted (· == 1) start [1, 2] [(1, [100, 9])])
    ∧ Hash.hashJoin (fun _ => true) true false 1 1 0 [(1, [100, 9])] (out.map (pickRow [1, 0])) = some [(1, [100, 9, 100, 5])] := by
  refine ⟨_, Run.scan (fun r => qualifies (· == 1) (restricted (· == 1) start [1, 2] [(1, [100, 9])]) [0, 1] r.2) fun _ _ h => h, ?_⟩
  decide +kernel

end Trident.Sparql.Plan
