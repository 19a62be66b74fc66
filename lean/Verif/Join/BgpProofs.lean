import Verif.Join.ScanProofs
import Verif.Join.FinalProofs
/-! # Patterns with names, and joins of scans -/
namespace Trident.Join

/-- A relation holds between the elements of two lists, one by one. -/
inductive Each {α β : Type} (R : α → β → Prop) : List α → List β → Prop
  | nil : Each R [] []
  | cons {a b l m} : R a b → Each R l m → Each R (a :: l) (b :: m)

theorem fst_inj {v w : Nat × Nat} : ∀ {l : List (Nat × Nat)}, (l.map (·.1)).Nodup → v ∈ l → w ∈ l → v.1 = w.1 → v = w
  | [], _, h, _, _ => by simp at h
  | a :: l, hn, hv, hw, he => by
    rw [List.map_cons, List.nodup_cons] at hn
    rcases List.mem_cons.1 hv with h1 | h1
    · rcases List.mem_cons.1 hw with h2 | h2
      · rw [h1, h2]
      · exact absurd (List.mem_map.2 ⟨w, h2, by rw [← he, h1]⟩) hn.1
    · rcases List.mem_cons.1 hw with h2 | h2
      · exact absurd (List.mem_map.2 ⟨v, h1, by rw [he, h2]⟩) hn.1
      · exact fst_inj hn.2 h1 h2 he

/-- The term at a position of a pattern. -/
def NPat.at (q : NPat) : Nat → Int
  | 0 => q.s
  | 1 => q.p
  | _ => q.o

/-- The variables are at the positions without a term, from left to right. -/
def NPat.Wf (q : NPat) : Prop := q.vars.map (·.2) = [0, 1, 2].filter fun j => decide (q.at j < 0)

/-- A triple is an answer to a pattern: it has its terms, and the same value wherever it has the same variable. -/
def NPat.Sat (q : NPat) (x : Triple) : Prop :=
  (∀ j, j < 3 → 0 ≤ q.at j → at3 x j = q.at j) ∧ ∀ v ∈ q.vars, ∀ w ∈ q.vars, v.1 = w.1 → at3 x v.2 = at3 x w.2

/-- The values of the variables. -/
def NPat.row (q : NPat) (x : Triple) : List Int := q.vars.map fun v => at3 x v.2

theorem rawTerm_nonneg {v : Int} (h : 0 ≤ v) : rawTerm v = ⟨0, v⟩ := by
  unfold rawTerm
  rw [if_neg (by omega)]

/-- The tuple of a pattern with distinct names. -/
theorem tuple_spec {q : NPat} (hw : q.Wf) (hn : q.columns.Nodup) :
    (∀ j, j < 3 → ((q.tuple.get j).id = 0 ↔ 0 ≤ q.at j) ∧ ((q.tuple.get j).id = 0 → (q.tuple.get j).value = q.at j)) ∧
      ∀ i j, i < 3 → j < 3 → (q.tuple.get i).id ≠ 0 → (q.tuple.get i).id = (q.tuple.get j).id → i = j := by
  obtain ⟨s, p, o, vars⟩ := q
  unfold NPat.Wf NPat.at at hw
  unfold NPat.columns at hn
  simp only at hw hn
  have three : ∀ P : Nat → Prop, P 0 → P 1 → P 2 → ∀ j, j < 3 → P j := by
    intro P h0 h1 h2 j hj
    match j, hj with
    | 0, _ => exact h0
    | 1, _ => exact h1
    | 2, _ => exact h2
  have nine : ∀ P : Nat → Nat → Prop, P 0 0 → P 0 1 → P 0 2 → P 1 0 → P 1 1 → P 1 2 → P 2 0 → P 2 1 → P 2 2 → ∀ i j, i < 3 → j < 3 → P i j := by
    intro P h0 h1 h2 h3 h4 h5 h6 h7 h8 i j hi hj
    match i, j, hi, hj with
    | 0, 0, _, _ => exact h0
    | 0, 1, _, _ => exact h1
    | 0, 2, _, _ => exact h2
    | 1, 0, _, _ => exact h3
    | 1, 1, _, _ => exact h4
    | 1, 2, _, _ => exact h5
    | 2, 0, _, _ => exact h6
    | 2, 1, _, _ => exact h7
    | 2, 2, _, _ => exact h8
  by_cases hs : s < 0 <;> by_cases hp : p < 0 <;> by_cases ho : o < 0 <;>
    simp only [List.filter_cons, hs, hp, ho, decide_true, decide_false, if_true, List.filter_nil, Bool.false_eq_true, if_false] at hw
  · match vars, hw, hn with
    | [(a, _), (b, _), (c, _)], hw, hn =>
      simp at hw hn
      obtain ⟨rfl, rfl, rfl⟩ := hw
      have h1 : ¬ b = a := fun h => hn.1.1 h.symm
      have h2 : ¬ c = b := fun h => hn.2 h.symm
      simp only [NPat.tuple, nameVars, Tup.set, NPat.at]
      rw [if_pos (by simp), if_pos (by simp [h1]), if_pos (by simp [h2])]
      refine ⟨three _ ?_ ?_ ?_, nine _ ?_ ?_ ?_ ?_ ?_ ?_ ?_ ?_ ?_⟩ <;> simp [Tup.get] <;> omega
  · match vars, hw, hn with
    | [(a, _), (b, _)], hw, hn =>
      simp at hw hn
      obtain ⟨rfl, rfl⟩ := hw
      have h1 : ¬ b = a := fun h => hn h.symm
      simp only [NPat.tuple, nameVars, Tup.set, NPat.at, rawTerm_nonneg (show 0 ≤ o by omega)]
      rw [if_pos (by simp), if_pos (by simp [h1])]
      refine ⟨three _ ?_ ?_ ?_, nine _ ?_ ?_ ?_ ?_ ?_ ?_ ?_ ?_ ?_⟩ <;> simp [Tup.get] <;> omega
  · match vars, hw, hn with
    | [(a, _), (b, _)], hw, hn =>
      simp at hw hn
      obtain ⟨rfl, rfl⟩ := hw
      have h1 : ¬ b = a := fun h => hn h.symm
      simp only [NPat.tuple, nameVars, Tup.set, NPat.at, rawTerm_nonneg (show 0 ≤ p by omega)]
      rw [if_pos (by simp), if_pos (by simp [h1])]
      refine ⟨three _ ?_ ?_ ?_, nine _ ?_ ?_ ?_ ?_ ?_ ?_ ?_ ?_ ?_⟩ <;> simp [Tup.get] <;> omega
  · match vars, hw, hn with
    | [(a, _)], hw, hn =>
      simp at hw
      subst hw
      simp only [NPat.tuple, nameVars, Tup.set, NPat.at, rawTerm_nonneg (show 0 ≤ p by omega), rawTerm_nonneg (show 0 ≤ o by omega)]
      rw [if_pos (by simp)]
      refine ⟨three _ ?_ ?_ ?_, nine _ ?_ ?_ ?_ ?_ ?_ ?_ ?_ ?_ ?_⟩ <;> simp [Tup.get] <;> omega
  · match vars, hw, hn with
    | [(a, _), (b, _)], hw, hn =>
      simp at hw hn
      obtain ⟨rfl, rfl⟩ := hw
      have h1 : ¬ b = a := fun h => hn h.symm
      simp only [NPat.tuple, nameVars, Tup.set, NPat.at, rawTerm_nonneg (show 0 ≤ s by omega)]
      rw [if_pos (by simp), if_pos (by simp [h1])]
      refine ⟨three _ ?_ ?_ ?_, nine _ ?_ ?_ ?_ ?_ ?_ ?_ ?_ ?_ ?_⟩ <;> simp [Tup.get] <;> omega
  · match vars, hw, hn with
    | [(a, _)], hw, hn =>
      simp at hw
      subst hw
      simp only [NPat.tuple, nameVars, Tup.set, NPat.at, rawTerm_nonneg (show 0 ≤ s by omega), rawTerm_nonneg (show 0 ≤ o by omega)]
      rw [if_pos (by simp)]
      refine ⟨three _ ?_ ?_ ?_, nine _ ?_ ?_ ?_ ?_ ?_ ?_ ?_ ?_ ?_⟩ <;> simp [Tup.get] <;> omega
  · match vars, hw, hn with
    | [(a, _)], hw, hn =>
      simp at hw
      subst hw
      simp only [NPat.tuple, nameVars, Tup.set, NPat.at, rawTerm_nonneg (show 0 ≤ s by omega), rawTerm_nonneg (show 0 ≤ p by omega)]
      rw [if_pos (by simp)]
      refine ⟨three _ ?_ ?_ ?_, nine _ ?_ ?_ ?_ ?_ ?_ ?_ ?_ ?_ ?_⟩ <;> simp [Tup.get] <;> omega
  · match vars, hw, hn with
    | [], hw, hn =>
      simp only [NPat.tuple, nameVars, NPat.at, rawTerm_nonneg (show 0 ≤ s by omega), rawTerm_nonneg (show 0 ≤ p by omega), rawTerm_nonneg (show 0 ≤ o by omega)]
      refine ⟨three _ ?_ ?_ ?_, nine _ ?_ ?_ ?_ ?_ ?_ ?_ ?_ ?_ ?_⟩ <;> simp [Tup.get] <;> omega

theorem scan_spec' {get : Nat → Int → Int → Int → QRes} {G : Triple → Prop} (ha : Answers get G) {q : NPat} (hw : q.Wf) (hn : q.columns.Nodup) :
    ∃ ts : List Triple, ts.Nodup ∧ (∀ x, x ∈ ts ↔ G x ∧ q.Sat x) ∧ (q.scan get).Returns (ts.map q.row) := by
  obtain ⟨h1, h2⟩ := tuple_spec hw hn
  have hrep : q.tuple.repeated = [] := by
    unfold Tup.repeated
    rw [List.filter_eq_nil_iff]
    intro e he hc
    simp only [Bool.and_eq_true, decide_eq_true_eq] at hc
    have hne : (q.tuple.get e.1).id ≠ 0 := by
      have := hc.1
      unfold Term.isVar at this
      have := of_decide_eq_true this
      omega
    simp only [List.mem_cons, List.not_mem_nil, or_false] at he
    rcases he with rfl | rfl | rfl
    · exact absurd (h2 0 1 (by omega) (by omega) hne hc.2.symm) (by omega)
    · exact absurd (h2 0 2 (by omega) (by omega) hne hc.2.symm) (by omega)
    · exact absurd (h2 1 2 (by omega) (by omega) hne hc.2.symm) (by omega)
  have hcols : q.tuple.cols true = q.vars.map (·.2) := by
    rw [hw]
    unfold Tup.cols
    rw [if_pos rfl]
    apply List.filter_congr
    intro j hj
    have hj3 : j < 3 := by simp at hj; omega
    have := (h1 j hj3).1
    unfold Term.isVar
    by_cases hq : q.at j < 0
    · rw [decide_eq_true hq, decide_eq_true]
      have : (q.tuple.get j).id ≠ 0 := fun h => by have := this.1 h; omega
      omega
    · rw [decide_eq_false hq, decide_eq_false]
      have := this.2 (by omega)
      omega
  obtain ⟨ts, t1, t2, -, t4⟩ := init_spec ha (t := q.tuple) (b := true) (sort := none)
    (fun j hj h0 => by rw [(h1 j hj).2 h0]; exact (h1 j hj).1.1 h0) (by unfold Tup.Aligned; rw [hrep]; simp) (by simp)
  refine ⟨ts, t1, ?_, ?_⟩
  · intro x
    rw [t2]
    refine and_congr_right fun _ => ?_
    unfold Tup.Fits NPat.Sat
    constructor
    · rintro ⟨f1, -⟩
      refine ⟨?_, ?_⟩
      · intro j hj hq
        have h0 := (h1 j hj).1.2 hq
        rw [f1 j hj h0, (h1 j hj).2 h0]
      · intro v hv w hw' he
        rw [fst_inj hn hv hw' he]
    · rintro ⟨f1, -⟩
      refine ⟨?_, ?_⟩
      · intro j hj h0
        rw [f1 j hj ((h1 j hj).1.1 h0), (h1 j hj).2 h0]
      · intro i j hi hj hne he
        rw [h2 i j hi hj hne he]
  · have : (ts.map fun x => (q.tuple.cols true).map (at3 x)) = ts.map q.row := by
      apply List.map_congr_left
      intro x _
      rw [hcols, List.map_map]
      rfl
    rw [← this]
    exact t4

/-! ## Joins of scans -/

/-- A scan as an input of a join. -/
def childOf (q : NPat) (ts : List Triple) : Child := ⟨q.columns, ts.map fun x => (q.row x).map Int.toNat⟩

/-- All ways to take a triple from each list. -/
def picks : List (List Triple) → List (List Triple)
  | [] => [[]]
  | ts :: l => ts.flatMap fun x => (picks l).map fun xs => x :: xs

/-- The values that triples give to the variables of patterns. -/
def bindOf : List NPat → List Triple → Binding
  | q :: qs, x :: xs => (q.vars.map fun v => (v.1, (at3 x v.2).toNat)) ++ bindOf qs xs
  | _, _ => []

theorem picks_length : ∀ {tss : List (List Triple)} {xs : List Triple}, xs ∈ picks tss → xs.length = tss.length
  | [], xs, h => by simp [picks] at h; simp [h]
  | ts :: l, xs, h => by
    simp only [picks, List.mem_flatMap, List.mem_map] at h
    obtain ⟨x, -, ys, hy, rfl⟩ := h
    simp [picks_length hy]

theorem mem_picks : ∀ {tss : List (List Triple)} {xs : List Triple}, xs ∈ picks tss ↔ Each (fun x ts => x ∈ ts) xs tss
  | [], xs => by
    simp only [picks, List.mem_singleton]
    constructor
    · rintro rfl; exact .nil
    · intro h; cases h; rfl
  | ts :: l, xs => by
    simp only [picks, List.mem_flatMap, List.mem_map]
    constructor
    · rintro ⟨x, hx, ys, hy, rfl⟩
      exact .cons hx (mem_picks.1 hy)
    · intro h
      cases h with
      | cons h1 h2 => exact ⟨_, h1, _, mem_picks.2 h2, rfl⟩

theorem picks_nodup : ∀ {tss : List (List Triple)}, (∀ ts ∈ tss, ts.Nodup) → (picks tss).Nodup
  | [], _ => by simp [picks]
  | ts :: l, h => by
    simp only [picks]
    have hl := picks_nodup fun t ht => h t (List.mem_cons_of_mem _ ht)
    have ht := h ts (List.mem_cons_self)
    unfold List.Nodup
    rw [List.flatMap, List.pairwise_flatten]
    refine ⟨?_, ?_⟩
    · intro l' hl'
      obtain ⟨x, -, rfl⟩ := List.mem_map.1 hl'
      exact List.pairwise_map.2 (hl.imp fun h e => h (List.cons.inj e).2)
    · refine List.pairwise_map.2 (ht.imp ?_)
      intro a b hab xs hxs ys hys he
      obtain ⟨xs', -, rfl⟩ := List.mem_map.1 hxs
      obtain ⟨ys', -, rfl⟩ := List.mem_map.1 hys
      exact hab (List.cons.inj he).1

theorem zip_row (q : NPat) (x : Triple) : q.columns.zip ((q.row x).map Int.toNat) = q.vars.map fun v => (v.1, (at3 x v.2).toNat) := by
  unfold NPat.columns NPat.row
  induction q.vars with
  | nil => rfl
  | cons v vs ih => simp only [List.map_cons, List.zip_cons_cons, ih]

theorem combos_children : ∀ {qs : List NPat} {tss : List (List Triple)}, qs.length = tss.length →
    combos (List.zipWith childOf qs tss) = (picks tss).map (bindOf qs)
  | [], [], _ => rfl
  | [], _ :: _, h => by simp at h
  | _ :: _, [], h => by simp at h
  | q :: qs, ts :: tss, h => by
    simp only [List.zipWith_cons_cons, combos, picks]
    rw [combos_children (by simpa using h)]
    unfold childOf
    simp only
    rw [List.flatMap_map, List.map_flatMap]
    congr 1
    funext x
    rw [List.map_map, List.map_map]
    apply List.map_congr_left
    intro xs _
    simp only [Function.comp_apply, bindOf, zip_row]

theorem solutions_children {qs : List NPat} {tss : List (List Triple)} (h : qs.length = tss.length) :
    solutions (List.zipWith childOf qs tss) = ((picks tss).filter fun xs => consistent (bindOf qs xs)).map (bindOf qs) := by
  unfold solutions
  rw [combos_children h, List.filter_map]
  rfl

/-- The columns alone. -/
def bare (q : NPat) : Child := ⟨q.columns, []⟩

theorem joinable_fields : ∀ {qs : List NPat} {tss : List (List Triple)} {cur : List Nat}, qs.length = tss.length → Joinable cur (qs.map bare) → Joinable cur (List.zipWith childOf qs tss)
  | [], [], _, _, _ => trivial
  | [], _ :: _, _, h, _ => by simp at h
  | _ :: _, [], _, h, _ => by simp at h
  | q :: qs, ts :: tss, cur, h, hj => ⟨hj.1, joinable_fields (by simpa using h) hj.2⟩

theorem projFits_fields {proj : List Nat} : ∀ {qs : List NPat} {tss : List (List Triple)} {cur : List Nat}, qs.length = tss.length → ProjFits proj cur (qs.map bare) →
    ProjFits proj cur (List.zipWith childOf qs tss)
  | [], [], _, _, _ => trivial
  | [], _ :: _, _, h, _ => by simp at h
  | _ :: _, [], _, h, _ => by simp at h
  | [q], [ts], cur, h, hj => hj
  | [q], _ :: _ :: _, cur, h, hj => by simp at h
  | _ :: _ :: _, [_], cur, h, hj => by simp at h
  | q :: q' :: qs, ts :: ts' :: tss, cur, h, hj => projFits_fields (qs := q' :: qs) (tss := ts' :: tss) (by simpa using h) hj

theorem varsOf_fields {qs : List NPat} {tss : List (List Triple)} (h : qs.length = tss.length) : varsOf (List.zipWith childOf qs tss) = varsOf (qs.map bare) := by
  unfold varsOf
  generalize ([] : List Nat) = z
  induction qs generalizing tss z with
  | nil => cases tss with
    | nil => rfl
    | cons _ _ => simp at h
  | cons q qs ih => cases tss with
    | nil => simp at h
    | cons ts tss =>
      simp only [List.zipWith_cons_cons, List.map_cons, List.foldl_cons]
      exact ih (by simpa using h) _

theorem bgp_spec {get : Nat → Int → Int → Int → QRes} {G : Triple → Prop} (ha : Answers get G) (hG : ∀ x, G x → ∀ j, 0 ≤ at3 x j ∧ at3 x j < 2 ^ 64 - 1)
    {srt : (Nat → List Nat) → List Nat → List Nat} (hs : SortsKeys srt) {proj : List Nat} {q : NPat} {qs : List NPat} (hne : qs ≠ [])
    (hw : ∀ p ∈ q :: qs, p.Wf ∧ p.columns.Nodup) (hj : Joinable q.columns (qs.map bare)) (hp : ProjFits proj q.columns (qs.map bare)) :
    ∃ (tss : List (List Triple)) (sols : List (List Triple)) (out : List (List Nat)),
      Each (fun p ts => (p.scan get).Returns (ts.map p.row)) (q :: qs) tss ∧
      hashJoin srt (List.zipWith childOf (q :: qs) tss) proj = some out ∧ sols.Nodup ∧
      (∀ xs, xs ∈ sols ↔ Each (fun p x => G x ∧ p.Sat x) (q :: qs) xs ∧ consistent (bindOf (q :: qs) xs) = true) ∧
      out.Perm (sols.map fun xs => (if proj = [] then varsOf ((q :: qs).map bare) else proj).map (value (bindOf (q :: qs) xs))) := by
  -- the scans
  have hscan : ∀ l : List NPat, (∀ p ∈ l, p.Wf ∧ p.columns.Nodup) → ∃ tss : List (List Triple), Each (fun p ts => (p.scan get).Returns (ts.map p.row) ∧ ts.Nodup ∧ ∀ x, x ∈ ts ↔ G x ∧ p.Sat x) l tss := by
    intro l
    induction l with
    | nil => intro _; exact ⟨[], .nil⟩
    | cons p l ih =>
      intro h
      obtain ⟨tss, ht⟩ := ih fun p hp => h p (List.mem_cons_of_mem _ hp)
      obtain ⟨ts, a, b, c⟩ := scan_spec' ha (h p (List.mem_cons_self)).1 (h p (List.mem_cons_self)).2
      exact ⟨ts :: tss, .cons ⟨c, a, b⟩ ht⟩
  obtain ⟨tss, ht⟩ := hscan _ hw
  cases ht with
  | @cons _ ts _ tss h1 h2 =>
    have hlen : (qs.length = tss.length) := by
      clear hne hw hj hp hscan
      induction h2 with
      | nil => rfl
      | cons _ _ ih => simp [ih]
    have hlen' : (q :: qs).length = (ts :: tss).length := by simp [hlen]
    have hok1 : ∀ p : NPat, p.columns.Nodup → ∀ ts : List Triple, (∀ x ∈ ts, G x) → (childOf p ts).Ok := by
      intro p hn ts hx
      refine ⟨hn, ?_, ?_⟩
      · intro r hr
        obtain ⟨x, -, rfl⟩ := List.mem_map.1 hr
        simp [NPat.row, childOf, NPat.columns]
      · intro r hr a ha
        obtain ⟨x, hxm, rfl⟩ := List.mem_map.1 hr
        unfold NPat.row at ha
        simp only [List.map_map, List.mem_map] at ha
        obtain ⟨v, -, rfl⟩ := ha
        have := hG x (hx x hxm) v.2
        simp only [Function.comp_apply]
        omega
    have hok : ∀ d ∈ List.zipWith childOf (q :: qs) (ts :: tss), d.Ok := by
      have : ∀ {l : List NPat} {m : List (List Triple)}, Each (fun p ts => (p.scan get).Returns (ts.map p.row) ∧ ts.Nodup ∧ ∀ x, x ∈ ts ↔ G x ∧ p.Sat x) l m →
          (∀ p ∈ l, p.Wf ∧ p.columns.Nodup) → ∀ d ∈ List.zipWith childOf l m, d.Ok := by
        intro l m h
        induction h with
        | nil => intro _ d hd; simp at hd
        | cons a b ih =>
          intro hw d hd
          simp only [List.zipWith_cons_cons, List.mem_cons] at hd
          rcases hd with rfl | hd
          · exact hok1 _ (hw _ (List.mem_cons_self)).2 _ fun x hx => ((a.2.2 x).1 hx).1
          · exact ih (fun p hp => hw p (List.mem_cons_of_mem _ hp)) d hd
      exact this (.cons h1 h2) hw
    have hnez : List.zipWith childOf qs tss ≠ [] := by
      cases qs with
      | nil => exact absurd rfl hne
      | cons _ _ => cases tss with
        | nil => simp at hlen
        | cons _ _ => simp
    obtain ⟨out, o1, o2⟩ := hashJoin_spec hs (proj := proj) (c := childOf q ts) (cs := List.zipWith childOf qs tss) hnez hok
      (joinable_fields hlen hj) (projFits_fields hlen hp)
    refine ⟨ts :: tss, (picks (ts :: tss)).filter fun xs => consistent (bindOf (q :: qs) xs), out, ?_, o1, ?_, ?_, ?_⟩
    · refine .cons h1.1 ?_
      clear hne hw hj hp hscan hlen hlen' hok hnez o1 o2
      induction h2 with
      | nil => exact .nil
      | cons a _ ih => exact .cons a.1 ih
    · refine (picks_nodup ?_).filter _
      have : ∀ {l : List NPat} {m : List (List Triple)}, Each (fun p ts => (p.scan get).Returns (ts.map p.row) ∧ ts.Nodup ∧ ∀ x, x ∈ ts ↔ G x ∧ p.Sat x) l m →
          ∀ ts ∈ m, ts.Nodup := by
        intro l m h
        induction h with
        | nil => intro _ h; simp at h
        | cons a _ ih =>
          intro ts hts
          rcases List.mem_cons.1 hts with rfl | hts
          · exact a.2.1
          · exact ih ts hts
      exact this (.cons h1 h2)
    · intro xs
      rw [List.mem_filter, mem_picks]
      refine and_congr_left fun _ => ?_
      have : ∀ {l : List NPat} {m : List (List Triple)}, Each (fun p ts => (p.scan get).Returns (ts.map p.row) ∧ ts.Nodup ∧ ∀ x, x ∈ ts ↔ G x ∧ p.Sat x) l m →
          ∀ xs, Each (fun x ts => x ∈ ts) xs m ↔ Each (fun p x => G x ∧ p.Sat x) l xs := by
        intro l m h
        induction h with
        | nil =>
          intro xs
          constructor
          · intro h; cases h; exact .nil
          · intro h; cases h; exact .nil
        | cons a _ ih =>
          intro xs
          constructor
          · intro h
            cases h with
            | cons b c => exact .cons ((a.2.2 _).1 b) ((ih _).1 c)
          · intro h
            cases h with
            | cons b c => exact .cons ((a.2.2 _).2 b) ((ih _).2 c)
      exact this (.cons h1 h2) xs
    · have he : childOf q ts :: List.zipWith childOf qs tss = List.zipWith childOf (q :: qs) (ts :: tss) := rfl
      rw [he, solutions_children hlen', varsOf_fields hlen', List.map_map] at o2
      exact o2

end Trident.Join
