import Verif.Query.GroupCount
import Verif.Props.Edges
import Verif.Props.Perm
/-!
# C117: the number of groups of edges
-/
namespace Trident.Edges
open Load
open Join (Answers)

/-- `c` is the number of values that `f` has on the triples of the store with `P`. -/
def Values {κ : Type} (G P : Triple → Prop) (f : Triple → κ) (c : Nat) : Prop := ∃ vs : List κ, vs.Nodup ∧ (∀ v, v ∈ vs ↔ ∃ t, G t ∧ P t ∧ f t = v) ∧ c = vs.length

/-- `getCard` is 0 exactly if no triple matches. -/
def TotalOk (G : Triple → Prop) (total : Int → Int → Int → Nat) : Prop := ∀ s r d, Distinct s r d → (0 < total s r d ↔ ∃ t, G t ∧ Fits s r d t)

theorem const_values {κ : Type} {G : Triple → Prop} {total : Int → Int → Int → Nat} (ht : TotalOk G total) {s r d : Int} (hd : Distinct s r d) {f : Triple → κ} {k : κ} (hk : ∀ t, Fits s r d t → f t = k) :
    Values G (Fits s r d) f (constCount total s r d) := by
  unfold constCount
  split
  next h =>
    obtain ⟨t, h1, h2⟩ := (ht s r d hd).1 h
    refine ⟨[k], by simp, fun v => ?_, rfl⟩
    rw [List.mem_singleton]
    constructor
    · rintro rfl
      exact ⟨t, h1, h2, hk t h2⟩
    · rintro ⟨u, _, h4, rfl⟩
      exact hk u h4
  next h =>
    refine ⟨[], .nil, fun v => ⟨fun h => absurd h List.not_mem_nil, ?_⟩, rfl⟩
    rintro ⟨u, h3, h4, _⟩
    exact absurd ((ht s r d hd).2 ⟨u, h3, h4⟩) h

/-- The number of groups that `grp_*` returns. -/
theorem count_groups {get : Nat → Int → Int → Int → QRes} {G : Triple → Prop} (ha : Answers get G) (hst : Steady get) (old : Old) (g : Bool × ((Int × Int) × Nat)) (n : Order) {s r d : Int} (hd : Distinct s r d) :
    ∃ m, ∀ fuel ≥ m, ∃ c, ((grp2 get fuel old g n s r d).map fun k => (drain k.I fuel k.s).length) = some c ∧
      Values G (Fits s r d) (fun t => (t.at (edgeIndex n s r d).positions.1, t.at (edgeIndex n s r d).positions.2.1)) c := by
  obtain ⟨m, h⟩ := grp2_spec ha hst old g n hd
  refine ⟨m, fun fuel hf => ?_⟩
  obtain ⟨k, out, h1, h2, h3, h4, h5⟩ := h fuel hf
  refine ⟨out.length, by rw [h1, Option.map_some, drain_eq h2 h3], out.map (·.1), h4, fun v => ?_, by rw [List.length_map]⟩
  rw [List.mem_map]
  constructor
  · rintro ⟨⟨v', c⟩, hv, rfl⟩
    obtain ⟨hc, ts, t1, t2, t3⟩ := (h5 v' c).1 hv
    have hne : ts ≠ [] := fun h => by rw [h] at t3; simp at t3; omega
    obtain ⟨u, hu⟩ := List.exists_mem_of_ne_nil _ hne
    obtain ⟨u1, u2, u3⟩ := (t2 u).1 hu
    exact ⟨u, u1, u2, u3⟩
  · rintro ⟨u, u1, u2, u3⟩
    obtain ⟨rows, o, r1, r2, r3, r4⟩ := rows_spec ha n s r d
    let ts := (rows.map (tripleAt (edgeIndex n s r d).idx)).filter fun t => decide ((t.at (edgeIndex n s r d).positions.1, t.at (edgeIndex n s r d).positions.2.1) = v)
    have hts : ∀ t, t ∈ ts ↔ G t ∧ Fits s r d t ∧ (t.at (edgeIndex n s r d).positions.1, t.at (edgeIndex n s r d).positions.2.1) = v := by
      intro t
      rw [List.mem_filter, mem_triples r4, decide_eq_true_eq, and_assoc]
    exact ⟨(v, ts.length), (h5 v ts.length).2 ⟨List.length_pos_of_mem ((hts u).2 ⟨u1, u2, u3⟩), ts, (triples_nodup r3).filter _, hts, rfl⟩, rfl⟩

theorem Values.swap {G P : Triple → Prop} {f h : Triple → Int} {c : Nat} (hv : Values G P (fun t => (f t, h t)) c) : Values G P (fun t => (h t, f t)) c := by
  obtain ⟨vs, h1, h2, h3⟩ := hv
  refine ⟨vs.map fun v => (v.2, v.1), ?_, fun v => ?_, by rw [List.length_map]; exact h3⟩
  · rw [List.Nodup, List.pairwise_map]
    refine h1.imp fun {a b} hab e => hab ?_
    rw [Prod.mk.injEq] at e
    exact Prod.ext e.2 e.1
  · rw [List.mem_map]
    constructor
    · rintro ⟨w, hw, rfl⟩
      obtain ⟨t, t1, t2, rfl⟩ := (h2 w).1 hw
      exact ⟨t, t1, t2, rfl⟩
    · rintro ⟨t, t1, t2, rfl⟩
      exact ⟨_, (h2 _).2 ⟨t, t1, t2, rfl⟩, rfl⟩

/-- **C117 (two positions, part).** If the third position of its name is a variable, each of `cnt_grp_sr`, `cnt_grp_sd`, `cnt_grp_rs`, `cnt_grp_rd`, `cnt_grp_ds` and `cnt_grp_dr` returns the number of pairs of terms
that the matching triples have at the positions of its name.  Missing: a term at the third position (`C117_third_violated`). -/
theorem C117_two_partial {get : Nat → Int → Int → Int → QRes} {G : Triple → Prop} (ha : Answers get G) (hst : Steady get) {total : Int → Int → Int → Nat} (ht : TotalOk G total) (old : Old)
    (g : Bool × ((Int × Int) × Nat)) (n : Order) {s r d : Int} (hd : Distinct s r d) (h3 : (Triple.mk s r d).at n.positions.2.2 < 0) :
    ∃ m, ∀ fuel ≥ m, ∃ c, cntGrp2 get total fuel old g n s r d = some c ∧ Values G (Fits s r d) (fun t => (t.at n.positions.1, t.at n.positions.2.1)) c := by
  by_cases hb : 0 ≤ (Triple.mk s r d).at n.positions.1 ∧ 0 ≤ (Triple.mk s r d).at n.positions.2.1
  · refine ⟨0, fun fuel _ => ⟨constCount total s r d, ?_, const_values ht hd (k := ((Triple.mk s r d).at n.positions.1, (Triple.mk s r d).at n.positions.2.1)) fun t hf => ?_⟩⟩
    · cases n <;> simp only [Order.positions, Triple.at] at hb <;> simp only [cntGrp2] <;> rw [if_pos (decide_eq_true (by omega))]
    · obtain ⟨f1, f2, f3⟩ := hf
      cases n <;> simp only [Order.positions, Triple.at] at hb ⊢ <;> rw [Prod.mk.injEq] <;> refine ⟨?_, ?_⟩ <;> first | exact f1 hb.1 | exact f1 hb.2 | exact f2 hb.1 | exact f2 hb.2 | exact f3 hb.1 | exact f3 hb.2
  · obtain ⟨m, h⟩ := count_groups ha hst old g n hd
    refine ⟨m, fun fuel hf => ?_⟩
    obtain ⟨c, h1, h2⟩ := h fuel hf
    refine ⟨c, ?_, ?_⟩
    · rw [← h1]
      cases n <;> simp only [Order.positions, Triple.at] at hb <;> simp only [cntGrp2] <;> rw [if_neg (by rw [decide_eq_true_eq]; omega)]
    · by_cases h2' : (Triple.mk s r d).at n.positions.2.1 < 0
      · have hn : edgeIndex n s r d = n := by
          cases n <;> simp only [Order.positions, Triple.at] at h2' h3 <;> simp only [edgeIndex] <;> rw [if_neg (by omega), if_neg (by omega)]
        rw [hn] at h2
        exact h2
      · have hn : (edgeIndex n s r d).positions.1 = n.positions.2.1 ∧ (edgeIndex n s r d).positions.2.1 = n.positions.1 := by
          cases n <;> simp only [Order.positions, Triple.at] at h2' h3 ⊢ <;> simp only [edgeIndex]
          · rw [if_neg (by omega), if_pos (by omega)]; exact ⟨rfl, rfl⟩
          · rw [if_neg (by omega), if_pos (by omega)]; exact ⟨rfl, rfl⟩
          · rw [if_neg (by omega), if_pos (by omega)]; exact ⟨rfl, rfl⟩
          · rw [if_neg (by omega), if_pos (by omega)]; exact ⟨rfl, rfl⟩
          · rw [if_neg (by omega), if_pos (by omega)]; exact ⟨rfl, rfl⟩
          · rw [if_neg (by omega), if_pos (by omega)]; exact ⟨rfl, rfl⟩
        rw [hn.1, hn.2] at h2
        exact h2.swap

/-- **C117 (third position, violated).** If the object is a term and subject and predicate are variables, `cnt_grp_sr` returns the number of subjects, not the number of pairs of subjects and predicates. -/
theorem C117_third_violated {get : Nat → Int → Int → Int → QRes} {G : Triple → Prop} (ha : Answers get G) (hst : Steady get) (total : Int → Int → Int → Nat) (old : Old) (g : Bool × ((Int × Int) × Nat))
    {s r d : Int} (hd : Distinct s r d) (hs : s < 0) (hr : r < 0) (ho : 0 ≤ d) :
    ∃ m, ∀ fuel ≥ m, ∃ c, cntGrp2 get total fuel old g .spo s r d = some c ∧ Values G (fun t => t.o = d) (fun t => t.s) c := by
  obtain ⟨m, h⟩ := count_groups ha hst old g .spo hd
  refine ⟨m, fun fuel hf => ?_⟩
  obtain ⟨c, h1, vs, v1, v2, v3⟩ := h fuel hf
  have hn : edgeIndex .spo s r d = .osp := by simp only [edgeIndex]; rw [if_pos (by omega), if_neg (by omega)]
  rw [hn] at v2
  simp only [Order.positions, Triple.at] at v2
  have hfit : ∀ t, Fits s r d t ↔ t.o = d := fun t => ⟨fun h => h.2.2 ho, fun h => ⟨fun h => absurd h (by omega), fun h => absurd h (by omega), fun _ => h⟩⟩
  simp only [hfit] at v2
  have hv : ∀ w ∈ vs, w.1 = d := by
    intro w hw
    obtain ⟨t, _, t2, rfl⟩ := (v2 w).1 hw
    exact t2
  refine ⟨c, ?_, vs.map (·.2), ?_, fun v => ?_, by rw [List.length_map]; exact v3⟩
  · rw [← h1]
    simp only [cntGrp2]
    rw [if_neg (by rw [decide_eq_true_eq]; omega)]
  · rw [List.Nodup, List.pairwise_map]
    refine v1.imp_of_mem fun {a b} ha hb hab e => hab ?_
    exact Prod.ext ((hv a ha).trans (hv b hb).symm) e
  · rw [List.mem_map]
    constructor
    · rintro ⟨w, hw, rfl⟩
      obtain ⟨t, t1, t2, rfl⟩ := (v2 w).1 hw
      exact ⟨t, t1, t2, rfl⟩
    · rintro ⟨t, t1, t2, rfl⟩
      exact ⟨_, (v2 _).2 ⟨t, t1, t2, rfl⟩, rfl⟩

/-- **C117 (no term, violated).** If all positions are variables, `cnt_grp_s`, `cnt_grp_r` and `cnt_grp_d` throw. -/
theorem C117_none_violated (get : Nat → Int → Int → Int → QRes) (card cardD : Nat → Int → Int → Int → Nat) (total : Int → Int → Int → Nat) (x : Pos) {s r d : Int} (hs : s < 0) (hr : r < 0) (ho : d < 0) :
    cntGrp1 get card cardD total x s r d = none := by
  cases x <;> simp only [cntGrp1] <;> rw [if_neg (by omega), getCardPos, if_pos ⟨hs, hr, ho⟩]

/-- The cardinalities of iterators (C16): the number of rows, and after `ignoreSecondColumn` the number of first values. -/
structure CardOk (get : Nat → Int → Int → Int → QRes) (card cardD : Nat → Int → Int → Int → Nat) : Prop where
  rows : ∀ idx s p o ob out, get idx s p o = .itr ob → ob.Returns out → card idx s p o = out.length
  firsts : ∀ idx s p o ob out, get idx s p o = .itr ob → ob.Returns out → ∀ vs : List Int, vs.Nodup → (∀ v, v ∈ vs ↔ ∃ x ∈ out, x.2.1 = v) → cardD idx s p o = vs.length

theorem exists_distinct : ∀ l : List Int, ∃ vs : List Int, vs.Nodup ∧ ∀ v, v ∈ vs ↔ v ∈ l
  | [] => ⟨[], .nil, fun _ => Iff.rfl⟩
  | x :: l => by
    obtain ⟨vs, h1, h2⟩ := exists_distinct l
    by_cases hx : x ∈ vs
    · refine ⟨vs, h1, fun v => ?_⟩
      rw [List.mem_cons, h2]
      exact ⟨.inr, fun h => h.elim (fun e => e ▸ (h2 x).1 hx) id⟩
    · refine ⟨x :: vs, List.nodup_cons.2 ⟨hx, h1⟩, fun v => ?_⟩
      rw [List.mem_cons, List.mem_cons, h2]

theorem arg_opt {x : Int} (h : x = -1 ∨ 0 ≤ x) : argOfPos (opt x) = x := by
  unfold opt argOfPos
  split
  · show (-1 : Int) = x
    omega
  · rfl

/-- The rows for a query whose variables are -1, in an order with the terms first. -/
theorem rows_in {get : Nat → Int → Int → Int → QRes} {G : Triple → Prop} (ha : Answers get G) {s r d : Int} (hs : s = -1 ∨ 0 ≤ s) (hr : r = -1 ∨ 0 ≤ r) (ho : d = -1 ∨ 0 ≤ d) (D : Order)
    (h1 : ((Pattern.mk (opt s) (opt r) (opt d)).at D.positions.2.1).isSome → ((Pattern.mk (opt s) (opt r) (opt d)).at D.positions.1).isSome)
    (h2 : ((Pattern.mk (opt s) (opt r) (opt d)).at D.positions.2.2).isSome → ((Pattern.mk (opt s) (opt r) (opt d)).at D.positions.2.1).isSome) :
    ∃ out o, get D.idx s r d = .itr o ∧ o.Returns out ∧ out.Pairwise Row3.lt ∧ ∀ x, x ∈ out ↔ ∃ t, G t ∧ Fits s r d t ∧ D.row t = x := by
  obtain ⟨out, o, g1, g2, g3, g4⟩ := ha ⟨opt s, opt r, opt d⟩ D (wf_opt s r d) h1 h2
  refine ⟨out, o, ?_, g2, g3, fun x => ?_⟩
  · simp only [arg_opt hs, arg_opt hr, arg_opt ho] at g1
    exact g1
  · rw [g4 x]
    simp only [matches_iff]

/-- The number of a position. -/
def posNum : Pos → Nat
  | .s => 0
  | .p => 1
  | .o => 2

/-- **C117 (one position, part).** If there is a term at another position, `cnt_grp_s`, `cnt_grp_r` and `cnt_grp_d` return the number of terms that the matching triples have at their position.
It is for variables that are given as -1, which `getCard` takes for distinct ones.  Missing: no terms (`C117_none_violated`), and other numbers for variables. -/
theorem C117_one_partial {get : Nat → Int → Int → Int → QRes} {G : Triple → Prop} (ha : Answers get G) {card cardD : Nat → Int → Int → Int → Nat} (hc : CardOk get card cardD) (total : Int → Int → Int → Nat)
    (x : Pos) {s r d : Int} (hs : s = -1 ∨ 0 ≤ s) (hr : r = -1 ∨ 0 ≤ r) (ho : d = -1 ∨ 0 ≤ d) (hx : (Triple.mk s r d).at x = -1) (hb : 0 ≤ s ∨ 0 ≤ r ∨ 0 ≤ d) :
    ∃ c, cntGrp1 get card cardD total x s r d = some c ∧ Values G (Fits s r d) (fun t => t.at x) c := by
  have hpos : cntGrp1 get card cardD total x s r d = getCardPos get card cardD s r d (posNum x) := by
    cases x <;> simp only [Triple.at] at hx <;> simp only [cntGrp1, posNum] <;> rw [if_neg (by omega)]
  rw [hpos]
  obtain ⟨D, hD, p1, p2⟩ := C20_bound_first ⟨opt s, opt r, opt d⟩ (wf_opt s r d)
  simp only [arg_opt hs, arg_opt hr, arg_opt ho] at hD
  obtain ⟨out, o, h1, h2, h3, h4⟩ := rows_in ha hs hr ho D p1 p2
  unfold getCardPos
  rw [if_neg (by omega), hD, h1]
  simp only
  by_cases hn : (o.I.hasNext o.s).1 = true
  · rw [if_pos hn]
    have hu : ¬ ((if s < 0 then 1 else 0) + (if r < 0 then 1 else 0) + (if d < 0 then 1 else 0) = 0) := by
      cases x <;> simp only [Triple.at] at hx <;> rw [hx] <;> simp
    rw [if_neg hu]
    by_cases h1u : (if s < 0 then 1 else 0) + (if r < 0 then 1 else 0) + (if d < 0 then 1 else 0) = 1
    · rw [if_pos h1u]
      refine ⟨_, rfl, (out.map (tripleAt D.idx)).map (·.at x), ?_, fun v => ?_, ?_⟩
      · rw [List.Nodup, List.pairwise_map]
        refine List.Pairwise.imp_of_mem (fun {a b} ha hb hab e => hab ?_) (triples_nodup (d := D) h3)
        obtain ⟨-, a1, a2, a3⟩ := (mem_triples h4 a).1 ha
        obtain ⟨-, b1, b2, b3⟩ := (mem_triples h4 b).1 hb
        obtain ⟨as, ap, ao⟩ := a
        obtain ⟨bs, bp, bo⟩ := b
        simp only at a1 a2 a3 b1 b2 b3
        have hsr : 0 ≤ s ∨ s < 0 := by omega
        have hrr : 0 ≤ r ∨ r < 0 := by omega
        have hor : 0 ≤ d ∨ d < 0 := by omega
        cases x <;> simp only [Triple.at] at hx e <;> rw [Triple.mk.injEq] <;> (split at h1u <;> split at h1u <;> split at h1u) <;> omega
      · rw [List.mem_map]
        constructor
        · rintro ⟨t, ht, rfl⟩
          exact ⟨t, ((mem_triples h4 t).1 ht).1, ((mem_triples h4 t).1 ht).2, rfl⟩
        · rintro ⟨t, t1, t2, rfl⟩
          exact ⟨t, (mem_triples h4 t).2 ⟨t1, t2⟩, rfl⟩
      · rw [List.length_map, List.length_map]
        exact hc.rows _ _ _ _ _ _ h1 h2
    · rw [if_neg h1u]
      have hE : ∃ E : Order, countIndex s r (posNum x) = E.idx ∧ E.positions.2.1 = x ∧
          (Pattern.mk (opt s) (opt r) (opt d)).at E.positions.2.1 = none ∧ (Pattern.mk (opt s) (opt r) (opt d)).at E.positions.2.2 = none := by
        have e0 : ∀ y : Int, y < 0 → opt y = none := fun y hy => if_pos hy
        cases x <;> simp only [Triple.at] at hx <;> (split at h1u <;> split at h1u <;> split at h1u) <;> first | omega | skip
        all_goals unfold countIndex posNum
        · exact ⟨.osp, by rw [if_neg (by omega), if_neg (by omega)]; rfl, rfl, e0 _ (by omega), e0 _ (by omega)⟩
        · exact ⟨.pso, by rw [if_neg (by omega), if_pos (by omega)]; rfl, rfl, e0 _ (by omega), e0 _ (by omega)⟩
        · exact ⟨.ops, by rw [if_neg (by omega), if_neg (by omega)]; rfl, rfl, e0 _ (by omega), e0 _ (by omega)⟩
        · exact ⟨.spo, by rw [if_pos (by omega)]; rfl, rfl, e0 _ (by omega), e0 _ (by omega)⟩
        · exact ⟨.pos, by rw [if_neg (by omega), if_pos (by omega)]; rfl, rfl, e0 _ (by omega), e0 _ (by omega)⟩
        · exact ⟨.sop, by rw [if_pos (by omega)]; rfl, rfl, e0 _ (by omega), e0 _ (by omega)⟩
      obtain ⟨E, e1, e2, e3, e4⟩ := hE
      obtain ⟨out', o', g1, g2, g3, g4⟩ := rows_in ha hs hr ho E (by rw [e3]; simp) (by rw [e4]; simp)
      obtain ⟨vs, v1, v2⟩ := exists_distinct (out'.map (·.2.1))
      have v3 : ∀ v, v ∈ vs ↔ ∃ w ∈ out', w.2.1 = v := fun v => by rw [v2, List.mem_map]
      refine ⟨_, rfl, vs, v1, fun v => ?_, by rw [e1]; exact hc.firsts _ _ _ _ _ _ g1 g2 vs v1 v3⟩
      rw [v3]
      have hrow : ∀ t, (E.row t).2.1 = t.at x := fun t => by rw [← e2]; rfl
      constructor
      · rintro ⟨w, hw, rfl⟩
        obtain ⟨t, t1, t2, rfl⟩ := (g4 w).1 hw
        exact ⟨t, t1, t2, (hrow t).symm⟩
      · rintro ⟨t, t1, t2, rfl⟩
        exact ⟨E.row t, (g4 _).2 ⟨t, t1, t2, rfl⟩, hrow t⟩
  · rw [if_neg hn]
    have hnil : out = [] := by
      cases h2 with
      | done _ => rfl
      | step h _ => exact absurd h hn
    refine ⟨_, rfl, [], .nil, fun v => ⟨fun h => absurd h List.not_mem_nil, ?_⟩, rfl⟩
    rintro ⟨t, t1, t2, _⟩
    exact absurd ((h4 _).2 ⟨t, t1, t2, rfl⟩) (by rw [hnil]; exact List.not_mem_nil)

/-! ## The hypotheses are met -/

/-- There are such cardinalities. -/
theorem exCards (get : Nat → Int → Int → Int → QRes) : ∃ card cardD, CardOk get card cardD := by
  have key : ∀ idx s p o, ∃ c : Nat × Nat, ∀ ob out, get idx s p o = .itr ob → ob.Returns out →
      c.1 = out.length ∧ ∀ vs : List Int, vs.Nodup → (∀ v, v ∈ vs ↔ ∃ x ∈ out, x.2.1 = v) → c.2 = vs.length := by
    intro idx s p o
    by_cases h : ∃ ob out, get idx s p o = .itr ob ∧ ob.Returns out
    · obtain ⟨ob, out, h1, h2⟩ := h
      obtain ⟨us, u1, u2⟩ := exists_distinct (out.map (·.2.1))
      refine ⟨(out.length, us.length), fun ob' out' g1 g2 => ?_⟩
      rw [h1] at g1
      injection g1 with g1
      subst g1
      have := Yields.unique h2 g2
      subst this
      exact ⟨rfl, fun vs v1 v2 => nodup_length u1 v1 fun v => by rw [u2, v2, List.mem_map]⟩
    · exact ⟨(0, 0), fun ob out g1 g2 => absurd ⟨ob, out, g1, g2⟩ h⟩
  exact ⟨fun idx s p o => (Classical.choose (key idx s p o)).1, fun idx s p o => (Classical.choose (key idx s p o)).2,
    ⟨fun idx s p o ob out g1 g2 => (Classical.choose_spec (key idx s p o) ob out g1 g2).1, fun idx s p o ob out g1 g2 => (Classical.choose_spec (key idx s p o) ob out g1 g2).2⟩⟩

theorem exTotal (G : Triple → Prop) : ∃ total, TotalOk G total := by
  classical
  exact ⟨fun s r d => if ∃ t, G t ∧ Fits s r d t then 1 else 0, fun s r d _ => by
    show 0 < (if ∃ t, G t ∧ Fits s r d t then 1 else 0) ↔ _
    split <;> rename_i h
    · simp only [h, Nat.zero_lt_one]
    · simp only [h, Nat.lt_irrefl]⟩

/-- `cnt_grp_s` with the predicate 1 on the graph of `Props/Query.lean`, loaded. -/
example : ∃ get card cardD, ∃ c, cntGrp1 get card cardD (fun _ _ _ => 0) .s (-1) 1 (-1) = some c ∧ Values (· ∈ exGraph.map T3.triple) (Fits (-1) 1 (-1)) (fun t => t.at .s) c := by
  obtain ⟨get, h⟩ := Join.exAnswers
  obtain ⟨card, cardD, hc⟩ := exCards get
  exact ⟨get, card, cardD, C117_one_partial h hc _ .s (.inl rfl) (.inr (by omega)) (.inl rfl) rfl (by omega)⟩

/-- The subjects with the predicate 1 are 2 and 7. -/
example : Values (· ∈ exGraph.map T3.triple) (Fits (-1) 1 (-1)) (fun t => t.at .s) 2 := by
  refine ⟨[2, 7], by decide, fun v => ⟨fun h => ?_, ?_⟩, rfl⟩
  · rw [List.mem_cons, List.mem_singleton] at h
    rcases h with rfl | rfl
    · exact ⟨⟨2, 1, 70000⟩, by decide, ⟨fun h => absurd h (by decide), fun _ => rfl, fun h => absurd h (by decide)⟩, rfl⟩
    · exact ⟨⟨7, 1, 300⟩, by decide, ⟨fun h => absurd h (by decide), fun _ => rfl, fun h => absurd h (by decide)⟩, rfl⟩
  · rintro ⟨t, t1, -, rfl⟩
    have : ∀ t ∈ exGraph.map T3.triple, t.at .s ∈ [(2 : Int), 7] := by decide
    exact this t t1

example : ∃ (kb : KB) (E : Env) (total : Int → Int → Int → Nat), ∃ m, ∀ fuel ≥ m, ∃ c, cntGrp2 (kb.getIterator E) total fuel ⟨true, true, 9⟩ (true, (7, 7), 3) .spo (-1) 1 (-2) = some c ∧
    Values (· ∈ exGraph.map T3.triple) (Fits (-1) 1 (-2)) (fun t => (t.at .s, t.at .p)) c := by
  obtain ⟨kb, E, h, _⟩ := exAnswersD
  obtain ⟨total, ht⟩ := exTotal (· ∈ exGraph.map T3.triple)
  exact ⟨kb, E, total, C117_two_partial h (steady_stored kb E) ht _ _ .spo (by unfold Distinct; omega) (by decide)⟩

example : ∃ (kb : KB) (E : Env), ∃ m, ∀ fuel ≥ m, ∃ c, cntGrp2 (kb.getIterator E) (fun _ _ _ => 0) fuel ⟨true, true, 9⟩ (true, (7, 7), 3) .spo (-1) (-2) 7 = some c ∧
    Values (· ∈ exGraph.map T3.triple) (fun t => t.o = 7) (fun t => t.s) c := by
  obtain ⟨kb, E, h, _⟩ := exAnswersD
  exact ⟨kb, E, C117_third_violated h (steady_stored kb E) _ _ _ (by unfold Distinct; omega) (by omega) (by omega) (by omega)⟩

example : cntGrp1 (fun _ _ _ _ => .null) (fun _ _ _ _ => 0) (fun _ _ _ _ => 0) (fun _ _ _ => 0) .s (-1) (-2) (-3) = none := C117_none_violated _ _ _ _ .s (by omega) (by omega) (by omega)

end Trident.Edges
