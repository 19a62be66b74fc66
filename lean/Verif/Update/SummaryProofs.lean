import Verif.Update.CountedProofs
import Verif.Update.CrashProofs
/-! Helper proofs for merging updates (no property statements here). -/
namespace Trident.Upd
open Load Diff3

/-! ## What is left, as lists -/

/-- One update of the other kind takes away, one of the same kind adds. -/
def sumStep (add : Bool) (cur : List Triple) (u : Update) : List Triple :=
  if isAdd u = add then cur ++ u.triples else cur.filter fun t => decide (t ∉ u.triples)

/-- The triples whose last update is of the given kind. -/
def sumOf (add : Bool) (us : List Update) : List Triple := us.foldl (sumStep add) []

/-- The updates of the kind bring new triples. -/
def NewFor (add : Bool) : List Triple → List Update → Prop
  | _, [] => True
  | cur, u :: us => u.triples.Nodup ∧ (isAdd u = add → ∀ t ∈ u.triples, t ∉ cur) ∧ NewFor add (sumStep add cur u) us

theorem sumStep_nodup {add : Bool} {cur : List Triple} {u : Update} (h : cur.Nodup) (hu : u.triples.Nodup) (hn : isAdd u = add → ∀ t ∈ u.triples, t ∉ cur) :
    (sumStep add cur u).Nodup := by
  unfold sumStep
  by_cases hk : isAdd u = add
  · rw [if_pos hk]
    exact List.nodup_append.2 ⟨h, hu, fun x hx y hy e => hn hk y hy (by rw [← e]; exact hx)⟩
  · rw [if_neg hk]; exact List.Pairwise.filter _ h

theorem sumStep_length (add : Bool) (cur : List Triple) (u : Update) : (sumStep add cur u).length ≤ cur.length + u.triples.length := by
  unfold sumStep
  split
  · simp
  · have := List.length_filter_le (fun t => decide (t ∉ u.triples)) cur; omega

theorem sumFold_nodup {add : Bool} {cur : List Triple} {us : List Update} (h : cur.Nodup) (hn : NewFor add cur us) : (us.foldl (sumStep add) cur).Nodup := by
  induction us generalizing cur with
  | nil => exact h
  | cons u us ih => exact ih (sumStep_nodup h hn.1 hn.2.1) hn.2.2

theorem sumFold_length (add : Bool) (cur : List Triple) (us : List Update) : (us.foldl (sumStep add) cur).length ≤ cur.length + (us.map (·.triples.length)).sum := by
  induction us generalizing cur with
  | nil => simp
  | cons u us ih =>
    have := ih (sumStep add cur u)
    have := sumStep_length add cur u
    simp only [List.foldl_cons, List.map_cons, List.sum_cons]
    omega

theorem mem_sumFold {add : Bool} {cur : List Triple} {us : List Update} {t : Triple} (h : t ∈ us.foldl (sumStep add) cur) :
    t ∈ cur ∨ ∃ u ∈ us, isAdd u = add ∧ t ∈ u.triples := by
  induction us generalizing cur with
  | nil => exact .inl h
  | cons u us ih =>
    rcases ih h with h | ⟨v, hv, h⟩
    · unfold sumStep at h
      by_cases hk : isAdd u = add
      · rw [if_pos hk] at h
        rcases List.mem_append.1 h with h | h
        · exact .inl h
        · exact .inr ⟨u, by simp, hk, h⟩
      · rw [if_neg hk] at h
        exact .inl (List.mem_filter.1 h).1
    · exact .inr ⟨v, by simp [hv], h⟩

theorem mem_sumStep {add : Bool} {cur : List Triple} {u : Update} {t : Triple} :
    t ∈ sumStep add cur u ↔ if isAdd u = add then t ∈ cur ∨ t ∈ u.triples else t ∈ cur ∧ t ∉ u.triples := by
  unfold sumStep
  by_cases hk : isAdd u = add
  · rw [if_pos hk, if_pos hk, List.mem_append]
  · rw [if_neg hk, if_neg hk, List.mem_filter, decide_eq_true_eq]

/-- The net effect of a history of fresh batches. -/
theorem net_fold {g : List Triple} {h : List Triple} {us : List Update} (hf : FreshAll h us) {A R : List Triple} (hA : ∀ t ∈ A, t ∈ h) (hR : ∀ t ∈ R, t ∉ h)
    (hnet : ∀ t, t ∈ h ↔ t ∈ A ∨ t ∈ g ∧ t ∉ R) :
    NewFor true A us ∧ NewFor false R us ∧ (∀ t ∈ us.foldl (sumStep true) A, t ∈ applyAll h us) ∧ (∀ t ∈ us.foldl (sumStep false) R, t ∉ applyAll h us) ∧
      ∀ t, t ∈ applyAll h us ↔ t ∈ us.foldl (sumStep true) A ∨ t ∈ g ∧ t ∉ us.foldl (sumStep false) R := by
  induction us generalizing h A R with
  | nil => exact ⟨trivial, trivial, hA, hR, hnet⟩
  | cons u us ih =>
    have hu := hf.1
    obtain ⟨i1, i2, i3⟩ := ih hf.2 (A := sumStep true A u) (R := sumStep false R u)
      (by
        intro t ht
        rw [mem_sumStep] at ht
        cases u with
        | add ts =>
          simp only [isAdd, if_true, Update.triples] at ht
          exact List.mem_append.2 (ht.imp (hA t) id)
        | del ts =>
          simp only [isAdd, Bool.false_eq_true, if_false, Update.triples] at ht
          exact List.mem_filter.2 ⟨hA t ht.1, by simpa using ht.2⟩)
      (by
        intro t ht
        rw [mem_sumStep] at ht
        cases u with
        | add ts =>
          simp only [isAdd, Bool.true_eq_false, if_false, Update.triples] at ht
          intro hc
          exact (List.mem_append.1 hc).elim (hR t ht.1) ht.2
        | del ts =>
          simp only [isAdd, if_true, Update.triples] at ht
          intro hc
          have hc := List.mem_filter.1 hc
          have h2 : t ∉ ts := by simpa using hc.2
          exact ht.elim (fun hr => hR t hr hc.1) h2)
      (by
        intro t
        rw [mem_sumStep, mem_sumStep]
        have := hnet t
        cases u with
        | add ts =>
          simp only [isAdd, Bool.true_eq_false, if_false, if_true, Update.triples]
          show t ∈ h ++ ts ↔ _
          rw [List.mem_append, this]
          by_cases h1 : t ∈ ts <;> by_cases h2 : t ∈ R <;> simp [h1, h2]
        | del ts =>
          simp only [isAdd, Bool.false_eq_true, if_false, if_true, Update.triples]
          show t ∈ h.filter (fun t => decide (t ∉ ts)) ↔ _
          rw [List.mem_filter, this, decide_eq_true_eq]
          by_cases h1 : t ∈ ts <;> by_cases h2 : t ∈ R <;> simp [h1, h2])
    refine ⟨⟨?_, ?_, i1⟩, ⟨?_, ?_, i2⟩, i3⟩
    · cases u with
      | add ts => exact hu.1
      | del ts => exact hu.1
    · intro hk t ht hc
      cases u with
      | add ts => exact hu.2 t ht (hA t hc)
      | del ts => simp [isAdd] at hk
    · cases u with
      | add ts => exact hu.1
      | del ts => exact hu.1
    · intro hk t ht hc
      cases u with
      | add ts => simp [isAdd] at hk
      | del ts => exact hR t hc (hu.2 t ht)

/-! ## The iterators -/

abbrev srow (t : Triple) : Row3 := Order.spo.row t

theorem srow_inj {a b : Triple} (h : srow a = srow b) : a = b :=
  Order.eq_of_row .spo (congrArg (fun r : Row3 => r.1) h) (congrArg (fun r : Row3 => r.2) h)

theorem mem_map_srow {l : List Triple} {t : Triple} : srow t ∈ l.map srow ↔ t ∈ l :=
  ⟨fun h => by obtain ⟨x, hx, e⟩ := List.mem_map.1 h; exact srow_inj e ▸ hx, fun h => List.mem_map_of_mem h⟩

theorem nodup_srow {l : List Triple} (h : l.Nodup) : (l.map srow).Nodup := List.pairwise_map.2 (h.imp fun hab e => hab (srow_inj e))

/-- The iterator returns the triples, sorted. -/
def Gives (o : Obj3) (cur : List Triple) : Prop := ∃ out, GoodS o out ∧ out.Perm (cur.map srow)

/-- What `finalItr` stands for. -/
def Rep (f : Final) (cur : List Triple) : Prop :=
  match f with
  | .null => cur = []
  | .plain o => Gives o cur
  | .comp cs => ∃ xs : List (Obj3 × List Row3), cs = xs.map (·.1) ∧ (∀ x ∈ xs, GoodS x.1 x.2) ∧ (xs.flatMap (·.2)).Perm (cur.map srow)

theorem gives_scan {D : Diff} {ts : List Triple} (h : DiffOkAt D .spo ts) (hn : ts.Nodup) : Gives (D.scan 0) ts := by
  obtain ⟨out, a, b⟩ := DiffOk_scan .spo h
  refine ⟨out, a, (List.perm_ext_iff_of_nodup (row3_strict.nodup a.2.2) (nodup_srow hn)).2 fun r => ?_⟩
  rw [b, List.mem_map]

theorem gives_rm {E : UEnv} (hE : E.Ok) {a b : Obj3} {l m : List Triple} (ha : Gives a l) (hb : Gives b m) (h1 : l.length < E.fuel) (h2 : m.length < E.fuel) :
    Gives (Obj3.rm E.fuel a b) (l.filter fun t => decide (t ∉ m)) := by
  obtain ⟨x, a1, a2⟩ := ha
  obtain ⟨y, b1, b2⟩ := hb
  refine ⟨_, (opsS_ok hE).rm a1 b1 (by have := a2.length_eq; rw [List.length_map] at this; omega) (by have := b2.length_eq; rw [List.length_map] at this; omega), ?_⟩
  refine (a2.filter _).trans ?_
  rw [List.filter_map]
  refine List.Perm.of_eq (congrArg (List.map srow) (List.filter_congr fun t _ => ?_))
  show decide (srow t ∉ y) = decide (t ∉ m)
  exact decide_eq_decide.2 (not_congr (b2.mem_iff.trans mem_map_srow))

theorem rep_obj {E : UEnv} (hE : E.Ok) {f : Final} {cur : List Triple} (h : Rep f cur) (hn : cur.Nodup) {o : Obj3} (ho : f.obj E = some o) : Gives o cur := by
  cases f with
  | null => simp [Final.obj] at ho
  | plain p =>
    obtain rfl : p = o := by simpa [Final.obj] using ho
    exact h
  | comp cs =>
    obtain ⟨xs, rfl, a, b⟩ := h
    obtain rfl : Obj3.composite E.sortS (xs.map (·.1)) = o := by simpa [Final.obj] using ho
    obtain ⟨out, c, d⟩ := row3_strict.exists_sorted (nodup_srow hn)
    refine ⟨out, ⟨cscan_idem _ _, ?_, c⟩, d⟩
    exact composite3_yields hE.sortS xs (fun x hx => ⟨(a x hx).2.1, (a x hx).2.2.imp Row3.lt_nl⟩) (c.imp Row3.lt_nl) (d.trans b.symm)

theorem rep_step {E : UEnv} (hE : E.Ok) {f : Final} {cur : List Triple} (h : Rep f cur) (hn : cur.Nodup) {d : Diff × Nat} {u : Update} (hp : 0 < d.2)
    (ha : d.1.add = isAdd u) (hd : DiffOkAt d.1 .spo u.triples) (hu : u.triples.Nodup) (add : Bool)
    (h1 : cur.length < E.fuel) (h2 : u.triples.length < E.fuel) :
    Rep (summaryStep E 0 add f d) (sumStep add cur u) := by
  have hs := gives_scan hd hu
  unfold summaryStep sumStep
  rw [if_pos hp, ha]
  by_cases hk : isAdd u = add
  · rw [if_pos hk, if_pos hk]
    cases f with
    | null =>
      have h : cur = [] := h
      subst h
      exact hs
    | plain o =>
      obtain ⟨x, a, b⟩ := h
      obtain ⟨y, c, e⟩ := hs
      refine ⟨[(o, x), (d.1.scan 0, y)], rfl, ?_, ?_⟩
      · intro z hz
        simp only [List.mem_cons, List.not_mem_nil, or_false] at hz
        rcases hz with rfl | rfl
        · exact a
        · exact c
      · rw [List.map_append]
        simpa using b.append e
    | comp cs =>
      obtain ⟨xs, rfl, a, b⟩ := h
      obtain ⟨y, c, e⟩ := hs
      refine ⟨xs ++ [(d.1.scan 0, y)], by simp, ?_, ?_⟩
      · intro z hz
        rcases List.mem_append.1 hz with hz | hz
        · exact a z hz
        · rw [List.mem_singleton.1 hz]; exact c
      · rw [List.map_append, List.flatMap_append]
        simpa using b.append e
  · rw [if_neg hk, if_neg hk]
    cases ho : f.obj E with
    | none =>
      cases f with
      | null =>
        have h : cur = [] := h
        subst h
        rfl
      | plain o => simp [Final.obj] at ho
      | comp cs => simp [Final.obj] at ho
    | some o => exact gives_rm hE (rep_obj hE h hn ho) hs h1 h2

/-- The updates that `summaryDiff` sees. -/
def counted (L : List (Update × (Diff × Nat))) : List Update := (L.filter fun x => decide (0 < x.2.2)).map (·.1)

/-- The updates of `us` opened. -/
def OpenedAs (L : List (Update × (Diff × Nat))) : Prop := ∀ x ∈ L, x.2.1.add = isAdd x.1 ∧ DiffOkAt x.2.1 .spo x.1.triples

theorem counted_cons_pos {x : Update × (Diff × Nat)} {L} (h : 0 < x.2.2) : counted (x :: L) = x.1 :: counted L := by
  unfold counted; rw [List.filter_cons_of_pos (by simpa using h)]; rfl

theorem counted_cons_neg {x : Update × (Diff × Nat)} {L} (h : ¬ 0 < x.2.2) : counted (x :: L) = counted L := by
  unfold counted; rw [List.filter_cons_of_neg (by simpa using h)]

theorem rep_fold {E : UEnv} (hE : E.Ok) (add : Bool) {L : List (Update × (Diff × Nat))} (hL : OpenedAs L) {f : Final} {cur : List Triple} (h : Rep f cur) (hn : cur.Nodup)
    (hnew : NewFor add cur (counted L)) (hf : cur.length + ((counted L).map (·.triples.length)).sum < E.fuel) :
    Rep ((L.map (·.2)).foldl (summaryStep E 0 add) f) ((counted L).foldl (sumStep add) cur) := by
  induction L generalizing f cur with
  | nil => exact h
  | cons x L ih =>
    have hL' : OpenedAs L := fun y hy => hL y (by simp [hy])
    by_cases hp : 0 < x.2.2
    · rw [counted_cons_pos hp] at hnew hf ⊢
      simp only [List.map_cons, List.foldl_cons, List.sum_cons] at hf ⊢
      have := sumStep_length add cur x.1
      exact ih hL' (rep_step hE h hn hp (hL x (by simp)).1 (hL x (by simp)).2 hnew.1 add (by omega) (by omega))
        (sumStep_nodup hn hnew.1 hnew.2.1) hnew.2.2 (by omega)
    · rw [counted_cons_neg hp] at hnew hf ⊢
      simp only [List.map_cons, List.foldl_cons]
      have e : summaryStep E 0 add f x.2 = f := by unfold summaryStep; rw [if_neg hp]
      rw [e]
      exact ih hL' h hn hnew hf

theorem fold_null (E : UEnv) (add : Bool) {L : List (Update × (Diff × Nat))} (hL : OpenedAs L) (f : Final) :
    ((L.map (·.2)).foldl (summaryStep E 0 add) f).obj E = none ↔ f.obj E = none ∧ ∀ u ∈ counted L, isAdd u ≠ add := by
  induction L generalizing f with
  | nil => simp [counted]
  | cons x L ih =>
    have hL' : OpenedAs L := fun y hy => hL y (by simp [hy])
    have ha := (hL x (by simp)).1
    simp only [List.map_cons, List.foldl_cons]
    rw [ih hL']
    by_cases hp : 0 < x.2.2
    · rw [counted_cons_pos hp]
      unfold summaryStep
      rw [if_pos hp, ha]
      by_cases hk : isAdd x.1 = add
      · rw [if_pos hk]
        have : (∀ u ∈ x.1 :: counted L, isAdd u ≠ add) ↔ False := ⟨fun h => h x.1 (by simp) hk, False.elim⟩
        rw [this]
        cases f <;> simp [Final.obj]
      · rw [if_neg hk]
        cases f <;> simp [Final.obj, hk]
    · rw [counted_cons_neg hp]
      unfold summaryStep
      rw [if_neg hp]

theorem summaryDiff_none (E : UEnv) (add : Bool) {L : List (Update × (Diff × Nat))} (hL : OpenedAs L) :
    summaryDiff E (L.map (·.2)) 0 add = none ↔ ∀ u ∈ counted L, isAdd u ≠ add := by
  unfold summaryDiff
  rw [fold_null E add hL]
  simp [Final.obj]

theorem summaryDiff_gives {E : UEnv} (hE : E.Ok) (add : Bool) {L : List (Update × (Diff × Nat))} (hL : OpenedAs L) (hnew : NewFor add [] (counted L))
    (hf : ((counted L).map (·.triples.length)).sum < E.fuel) {o : Obj3} (ho : summaryDiff E (L.map (·.2)) 0 add = some o) : Gives o (sumOf add (counted L)) :=
  rep_obj hE (rep_fold hE add hL (f := .null) (cur := []) rfl .nil hnew (by simpa using hf)) (sumFold_nodup .nil hnew) ho

theorem sumOf_empty {add : Bool} {us : List Update} (h : ∀ u ∈ us, isAdd u ≠ add) : sumOf add us = [] := by
  have : ∀ t, t ∉ sumOf add us := by
    intro t ht
    rcases mem_sumFold ht with h' | ⟨u, hu, hk, -⟩
    · simp at h'
    · exact h u hu hk
  exact List.eq_nil_iff_forall_not_mem.2 this

/-- The triples that are left of the updates of one kind. -/
def left (add : Bool) (us : List Update) : List Triple := (sumOf add us).filter fun t => decide (t ∉ sumOf (!add) us)

theorem summary_none (E : UEnv) (add : Bool) {L : List (Update × (Diff × Nat))} (hL : OpenedAs L) (h : ∀ u ∈ counted L, isAdd u ≠ add) :
    summary E (L.map (·.2)) add = none := by
  unfold summary
  rw [(summaryDiff_none E add hL).2 h]

theorem summary_gives {E : UEnv} (hE : E.Ok) (add : Bool) {L : List (Update × (Diff × Nat))} (hL : OpenedAs L) (hnew : ∀ a, NewFor a [] (counted L))
    (hf : ((counted L).map (·.triples.length)).sum < E.fuel) {u : Update} (hu : u ∈ counted L) (hk : isAdd u = add) :
    ∃ o, summary E (L.map (·.2)) add = some o ∧ Gives o (left add (counted L)) := by
  unfold summary
  cases h1 : summaryDiff E (L.map (·.2)) 0 add with
  | none => exact absurd hk ((summaryDiff_none E add hL).1 h1 u hu)
  | some p =>
    have g1 := summaryDiff_gives hE add hL (hnew _) hf h1
    simp only
    cases h2 : summaryDiff E (L.map (·.2)) 0 (!add) with
    | none =>
      refine ⟨p, rfl, ?_⟩
      have := sumOf_empty ((summaryDiff_none E (!add) hL).1 h2)
      unfold left
      rw [this, List.filter_eq_self.2 (by simp)]
      exact g1
    | some m =>
      have g2 := summaryDiff_gives hE (!add) hL (hnew _) hf h2
      have l1 := sumFold_length add [] (counted L)
      have l2 := sumFold_length (!add) [] (counted L)
      refine ⟨_, rfl, gives_rm hE g1 g2 ?_ ?_⟩
      · show (List.foldl (sumStep add) [] _).length < _
        simp only [List.length_nil] at l1; omega
      · show (List.foldl (sumStep (!add)) [] _).length < _
        simp only [List.length_nil] at l2; omega

theorem left_nodup {add : Bool} {us : List Update} (h : NewFor add [] us) : (left add us).Nodup := List.Pairwise.filter _ (sumFold_nodup .nil h)

theorem left_length (add : Bool) (us : List Update) : (left add us).length ≤ (us.map (·.triples.length)).sum := by
  have l1 := sumFold_length add [] us
  have := List.length_filter_le (fun t => decide (t ∉ sumOf (!add) us)) (sumOf add us)
  simp only [List.length_nil] at l1
  unfold left sumOf at *
  omega

theorem sumFold_both (A R : List Triple) (us : List Update) :
    (us.foldl (sumStep true) A).length + (us.foldl (sumStep false) R).length ≤ A.length + R.length + (us.map (·.triples.length)).sum := by
  induction us generalizing A R with
  | nil => simp
  | cons u us ih =>
    have := ih (sumStep true A u) (sumStep false R u)
    have hs : (sumStep true A u).length + (sumStep false R u).length ≤ A.length + R.length + u.triples.length := by
      have h1 := List.length_filter_le (fun t => decide (t ∉ u.triples)) A
      have h2 := List.length_filter_le (fun t => decide (t ∉ u.triples)) R
      unfold sumStep
      cases u with
      | add ts => simp only [isAdd, if_true, Bool.true_eq_false, if_false, List.length_append]; omega
      | del ts => simp only [isAdd, if_true, Bool.false_eq_true, if_false, List.length_append]; omega
    simp only [List.foldl_cons, List.map_cons, List.sum_cons]
    omega

theorem left_both (us : List Update) : (left true us).length + (left false us).length ≤ (us.map (·.triples.length)).sum := by
  have := sumFold_both [] [] us
  have h1 := List.length_filter_le (fun t => decide (t ∉ sumOf (!true) us)) (sumOf true us)
  have h2 := List.length_filter_le (fun t => decide (t ∉ sumOf (!false) us)) (sumOf false us)
  simp only [List.length_nil] at this
  unfold left
  unfold sumOf at *
  omega

/-! ## Writing the new directory -/

theorem insertNum_last {n : Nat} {u : Stored} {l : List (Nat × Stored)} (h : ∀ e ∈ l, e.1 ≤ n) : insertNum n u l = l ++ [(n, u)] := by
  induction l with
  | nil => rfl
  | cons e l ih =>
    have := h e (by simp)
    rw [insertNum, if_neg (by omega), ih (fun e he => h e (by simp [he]))]
    rfl

theorem ndir_write {S : Sorts} {rnd : Nat → Nat → Bool × Bool} {N : NDir} {n : Nat} {add : Bool} {ts : List T3} (h : ∀ e ∈ N.ups, e.1 ≤ n) :
    (N.write S rnd n add ts).disk = N.disk.write S rnd add ts := by
  unfold NDir.write NDir.disk Disk.write
  rw [insertNum_last h]
  simp

theorem rowOf_rowT3 {t : T3} : rowT3 (srow t.triple) = t := by
  show rowT3 (rowOf t) = t
  rw [rowOf_eq]
  simp [rowT3]

/-- The triples that are collected. -/
theorem gives_drain {E : UEnv} {o : Obj3} {l : List Triple} (h : Gives o l) (hl : l.length < E.fuel)
    (hid : ∀ t ∈ l, ∃ x : T3, x.triple = t ∧ x.1 < 2 ^ 32 - 1 ∧ x.2.1 < 2 ^ 32 - 1 ∧ x.2.2 < 2 ^ 32 - 1) :
    ∃ ts : List T3, (drain o.I E.fuel o.s).map rowT3 = ts ∧ ts.Pairwise (fun a b => Row3.lt (rowOf a) (rowOf b)) ∧ ts.length = l.length ∧
      (∀ t, t ∈ ts ↔ t.triple ∈ l) ∧ (∀ t ∈ l, ∃ x ∈ ts, x.triple = t) ∧ ∀ x ∈ ts, x.1 < 2 ^ 32 - 1 ∧ x.2.1 < 2 ^ 32 - 1 ∧ x.2.2 < 2 ^ 32 - 1 := by
  obtain ⟨out, a, b⟩ := h
  have hlen : out.length = l.length := by have := b.length_eq; rwa [List.length_map] at this
  rw [drain_eq a.2.1 (by omega)]
  have hout : ∀ r ∈ out, ∃ x : T3, rowOf x = r ∧ x.triple ∈ l ∧ x.1 < 2 ^ 32 - 1 ∧ x.2.1 < 2 ^ 32 - 1 ∧ x.2.2 < 2 ^ 32 - 1 := by
    intro r hr
    obtain ⟨t, ht, rfl⟩ := List.mem_map.1 (b.mem_iff.1 hr)
    obtain ⟨x, rfl, hx⟩ := hid t ht
    exact ⟨x, rfl, ht, hx⟩
  have hback : ∀ r ∈ out, rowOf (rowT3 r) = r := by
    intro r hr
    obtain ⟨x, rfl, -⟩ := hout r hr
    show rowOf (rowT3 (srow x.triple)) = _
    rw [rowOf_rowT3]
  refine ⟨out.map rowT3, rfl, ?_, by rw [List.length_map, hlen], ?_, ?_, ?_⟩
  · rw [List.pairwise_map]
    refine List.Pairwise.imp_of_mem (fun {x y} hx hy hxy => ?_) a.2.2
    rw [hback x hx, hback y hy]; exact hxy
  · intro t
    constructor
    · intro ht
      obtain ⟨r, hr, rfl⟩ := List.mem_map.1 ht
      obtain ⟨x, rfl, hx, -⟩ := hout r hr
      show (rowT3 (srow x.triple)).triple ∈ l
      rw [rowOf_rowT3]; exact hx
    · intro ht
      exact List.mem_map.2 ⟨srow t.triple, b.mem_iff.2 (List.mem_map_of_mem ht), rowOf_rowT3⟩
  · intro t ht
    obtain ⟨x, rfl, -⟩ := hid t ht
    exact ⟨x, List.mem_map.2 ⟨srow x.triple, b.mem_iff.2 (List.mem_map_of_mem ht), rowOf_rowT3⟩, rfl⟩
  · intro x hx
    obtain ⟨r, hr, rfl⟩ := List.mem_map.1 hx
    obtain ⟨y, rfl, -, hy⟩ := hout r hr
    show (rowT3 (srow y.triple)).1 < _ ∧ (rowT3 (srow y.triple)).2.1 < _ ∧ (rowT3 (srow y.triple)).2.2 < _
    rw [rowOf_rowT3]; exact hy

theorem nodup_of_lt {ts : List T3} (h : ts.Pairwise (fun a b => Row3.lt (rowOf a) (rowOf b))) : ts.Nodup :=
  h.imp fun {a b} hab e => by rw [e] at hab; exact Row3.lt_irrefl _ hab

/-- The stored graph alone. -/
theorem base_scan {kb : KB} {g : List Triple} (h : Loaded kb g) {E : UEnv} (hE : E.Ok) (hf : g.length < E.fuel) (hg : g ≠ []) (hr : kb.Reads .spo) :
    ∃ b out, kb.getIteratorU E [] 0 (-1) (-1) (-1) = .itr b ∧ Yields b.I b.s out ∧ out.Pairwise Row3.lt ∧ out.length < E.fuel ∧
      ∀ t : T3, rowOf t ∈ out ↔ t.triple ∈ g := by
  obtain ⟨out, ⟨o, e, hy⟩, hs, hmem⟩ := updates_query h hE [] [] rfl .spo (fun i a b => absurd a (by simp)) trivial (by simpa using hf) ⟨none, none, none⟩
    (by intro x v hv; cases x <;> simp [Pattern.at] at hv) hr (by simp [Pattern.at, Order.positions]) (by simp [Pattern.at, Order.positions]) (.inl hg)
  have hrow : ∀ r, r ∈ out ↔ r ∈ g.map srow := by
    intro r
    rw [hmem, List.mem_map]
    constructor
    · rintro ⟨t, a, -, b⟩; exact ⟨t, a, b⟩
    · rintro ⟨t, a, b⟩; exact ⟨t, a, by intro x v hv; cases x <;> simp [Pattern.at] at hv, b⟩
  refine ⟨o, out, e, hy, hs, ?_, fun t => (hrow _).trans mem_map_srow⟩
  have h1 : out.length ≤ (g.map srow).length := length_le_of_nodup_subset (row3_strict.nodup hs) fun r hr => (hrow r).1 hr
  rw [List.length_map] at h1
  omega

/-- The batches that are written: no empty ones. -/
def batch (add : Bool) (ts : List T3) : List Update := if ts.isEmpty then [] else [request add ts]

theorem create_add {kb : KB} {E : UEnv} {S : Sorts} (rnd : Nat → Nat → Bool × Bool) {o : Obj3} {l : List Triple}
    (h : Gives o l) (hl : l.length < E.fuel) (hid : ∀ t ∈ l, ∃ x : T3, x.triple = t ∧ x.1 < 2 ^ 32 - 1 ∧ x.2.1 < 2 ^ 32 - 1 ∧ x.2.2 < 2 ^ 32 - 1) (n : Nat) (N : NDir) :
    ∃ ts : List T3, createSingle kb E S rnd true (some o) n N = some (if ts.isEmpty then N else N.write S rnd n true ts) ∧ ts.Nodup ∧ ts.length ≤ l.length ∧
      (∀ t, t ∈ ts.map T3.triple ↔ t ∈ l) ∧ ∀ x ∈ ts, x.1 < 2 ^ 32 - 1 ∧ x.2.1 < 2 ^ 32 - 1 ∧ x.2.2 < 2 ^ 32 - 1 := by
  obtain ⟨ts, e, a, b, c, d, f⟩ := gives_drain h hl hid
  refine ⟨ts, ?_, nodup_of_lt a, by omega, fun t => ⟨fun ht => ?_, fun ht => ?_⟩, f⟩
  · unfold createSingle
    simp only [e]
    by_cases he : ts.isEmpty
    · simp [he]
    · simp [he]
  · obtain ⟨x, hx, rfl⟩ := List.mem_map.1 ht
    exact (c x).1 hx
  · obtain ⟨x, hx, rfl⟩ := d t ht
    exact List.mem_map_of_mem hx

theorem create_del {kb : KB} {g : List Triple} (hkb : Loaded kb g) {E : UEnv} (hE : E.Ok) (hf : g.length < E.fuel) (hg : g ≠ []) (hr : kb.Reads .spo)
    {S : Sorts} (rnd : Nat → Nat → Bool × Bool) {o : Obj3} {l : List Triple}
    (h : Gives o l) (hl : l.length < E.fuel) (hid : ∀ t ∈ l, ∃ x : T3, x.triple = t ∧ x.1 < 2 ^ 32 - 1 ∧ x.2.1 < 2 ^ 32 - 1 ∧ x.2.2 < 2 ^ 32 - 1) (n : Nat) (N : NDir) :
    ∃ ts : List T3, createSingle kb E S rnd false (some o) n N = some (if ts.isEmpty then N else N.write S rnd n false ts) ∧ ts.Nodup ∧ ts.length ≤ l.length ∧
      (∀ t, t ∈ ts.map T3.triple ↔ t ∈ l ∧ t ∈ g) ∧ ∀ x ∈ ts, x.1 < 2 ^ 32 - 1 ∧ x.2.1 < 2 ^ 32 - 1 ∧ x.2.2 < 2 ^ 32 - 1 := by
  obtain ⟨ts, e, a, b, c, d, f⟩ := gives_drain h hl hid
  obtain ⟨ob, out, e2, y1, y2, y3, y4⟩ := base_scan hkb hE hf hg hr
  have hm := matched_eq (add := false) y1 y2 y3 a
  refine ⟨ts.filter (keep false out), ?_, List.Pairwise.filter _ (nodup_of_lt a), ?_, fun t => ⟨fun ht => ?_, fun ht => ?_⟩, fun x hx => f x (List.mem_filter.1 hx).1⟩
  · unfold createSingle
    simp only [e]
    by_cases he : ts.isEmpty
    · have : ts = [] := by simpa using he
      subst this
      simp
    · have he : ts.isEmpty = false := by simpa using he
      simp only [he, Bool.false_eq_true, if_false, e2, hm]
      by_cases hq : (ts.filter (keep false out)).isEmpty
      · rw [if_pos hq, if_pos hq]
      · rw [if_neg hq, if_neg hq]
  · have := List.length_filter_le (keep false out) ts; omega
  · obtain ⟨x, hx, rfl⟩ := List.mem_map.1 ht
    obtain ⟨hx, hk⟩ := List.mem_filter.1 hx
    exact ⟨(c x).1 hx, (y4 x).1 (by simpa [keep] using hk)⟩
  · obtain ⟨x, hx, rfl⟩ := d t ht.1
    exact List.mem_map_of_mem (List.mem_filter.2 ⟨hx, by simpa [keep] using (y4 x).2 ht.2⟩)

theorem left_mem {add : Bool} {us : List Update} {t : Triple} (h : t ∈ left add us) : ∃ u ∈ us, isAdd u = add ∧ t ∈ u.triples :=
  (mem_sumFold (List.mem_filter.1 h).1).resolve_left (by simp)

theorem left_disjoint {us : List Update} {t : Triple} (h : t ∈ left true us) (h' : t ∈ left false us) : False := by
  have := (List.mem_filter.1 h).2
  simp only [Bool.not_true, decide_eq_true_eq] at this
  exact this (List.mem_filter.1 h').1

theorem counted_sub (L : List (Update × (Diff × Nat))) : ∀ u ∈ counted L, u ∈ L.map (·.1) := by
  intro u hu
  obtain ⟨x, hx, rfl⟩ := List.mem_map.1 hu
  exact List.mem_map_of_mem (List.mem_filter.1 hx).1

theorem sum_counted_le (L : List (Update × (Diff × Nat))) : ((counted L).map (·.triples.length)).sum ≤ ((L.map (·.1)).map (·.triples.length)).sum := by
  induction L with
  | nil => simp [counted]
  | cons x L ih =>
    by_cases hp : 0 < x.2.2
    · rw [counted_cons_pos hp]; simp only [List.map_cons, List.sum_cons]; omega
    · rw [counted_cons_neg hp]; simp only [List.map_cons, List.sum_cons]; omega

theorem opened_filter {L : List (Update × (Diff × Nat))} (hL : OpenedAs L) (add : Bool) :
    ((L.map (·.2)).filter fun d => d.1.add == add).length = ((L.map (·.1)).filter fun u => isAdd u == add).length := by
  induction L with
  | nil => rfl
  | cons x L ih =>
    have := ih fun y hy => hL y (by simp [hy])
    simp only [List.map_cons, List.filter_cons, (hL x (by simp)).1]
    by_cases h : isAdd x.1 == add
    · simp only [if_pos h, List.length_cons, this]
    · simp only [if_neg h, this]

theorem filter_pos_iff {us : List Update} {add : Bool} : (us.filter fun u => isAdd u == add).length ≥ 1 ↔ ∃ u ∈ us, isAdd u = add := by
  constructor
  · intro h
    obtain ⟨u, hu⟩ := List.exists_mem_of_ne_nil _ (List.length_pos_iff.1 (Nat.lt_of_lt_of_le Nat.zero_lt_one h))
    obtain ⟨h1, h2⟩ := List.mem_filter.1 hu
    exact ⟨u, h1, by simpa using h2⟩
  · rintro ⟨u, hu, hk⟩
    exact List.length_pos_iff.2 (List.ne_nil_of_mem (List.mem_filter.2 ⟨hu, by simpa using hk⟩))

/-- Write a batch, unless it is empty. -/
def wr (S : Sorts) (rnd : Nat → Nat → Bool × Bool) (add : Bool) (D : Disk) (ts : List T3) : Disk := if ts.isEmpty then D else D.write S rnd add ts

/-- The new directory: at most one addition, and at most one deletion. -/
theorem newDiff_spec {kb : KB} {g : List Triple} (hkb : Loaded kb g) {E : UEnv} (hE : E.Ok) (hg : g ≠ []) (hr : kb.Reads .spo) {S : Sorts} (hS : S.Ok)
    (rnd : Nat → Nat → Nat → Bool × Bool) {L : List (Update × (Diff × Nat))} (hL : OpenedAs L) (hnew : ∀ a, NewFor a [] (counted L))
    (hids : ∀ u ∈ L.map (·.1), ∀ t ∈ u.triples, ∃ x : T3, x.triple = t ∧ x.1 < 2 ^ 32 - 1 ∧ x.2.1 < 2 ^ 32 - 1 ∧ x.2.2 < 2 ^ 32 - 1)
    (hf : g.length + ((L.map (·.1)).map (·.triples.length)).sum < E.fuel) (hvol : ((L.map (·.1)).map (·.triples.length)).sum < 2 ^ 24)
    (hseen : ∀ u ∈ L.map (·.1), ∃ v ∈ counted L, isAdd v = isAdd u) :
    ∃ N TA TR, newDiff kb E S rnd (L.map (·.2)) = some N ∧ N.disk = wr S (rnd 1) false (wr S (rnd 0) true Disk.empty TA) TR ∧ DiskOk (TR.map T3.triple) N.disk (batch true TA ++ batch false TR) ∧
      (TA.map T3.triple).Nodup ∧ (TR.map T3.triple).Nodup ∧
      (∀ t, t ∈ TA.map T3.triple ↔ t ∈ left true (counted L)) ∧ (∀ t, t ∈ TR.map T3.triple ↔ t ∈ left false (counted L) ∧ t ∈ g) ∧
      TA.length + TR.length ≤ ((L.map (·.1)).map (·.triples.length)).sum ∧
      N.ups.map (·.1) = (if TA.isEmpty then [] else [0]) ++ (if TR.isEmpty then [] else [if ((L.map (·.1)).filter fun u => isAdd u == true).length ≠ 0 then 1 else 0]) := by
  have hsum := sum_counted_le L
  have hlid : ∀ add, ∀ t ∈ left add (counted L), ∃ x : T3, x.triple = t ∧ x.1 < 2 ^ 32 - 1 ∧ x.2.1 < 2 ^ 32 - 1 ∧ x.2.2 < 2 ^ 32 - 1 := by
    intro add t ht
    obtain ⟨u, hu, -, hut⟩ := left_mem ht
    exact hids u (counted_sub L u hu) t hut
  have e1 : ((L.map (·.2)).filter fun d => d.1.add).length = ((L.map (·.1)).filter fun u => isAdd u == true).length := by
    rw [← opened_filter hL true]; simp
  have e2 : ((L.map (·.2)).filter fun d => !d.1.add).length = ((L.map (·.1)).filter fun u => isAdd u == false).length := by
    rw [← opened_filter hL false]
    congr 1
    refine List.filter_congr fun d _ => ?_
    cases d.1.add <;> rfl
  have emp : ∀ add, ¬ ((L.map (·.1)).filter fun u => isAdd u == add).length ≥ 1 → ∀ t, t ∉ left add (counted L) := by
    intro add hno t ht
    obtain ⟨u, hu, hk, -⟩ := left_mem ht
    exact hno (filter_pos_iff.2 ⟨u, counted_sub L u hu, hk⟩)
  have llen := fun add => left_length add (counted L)
  -- the addition
  have hadd : ∃ (TA : List T3), (if ((L.map (·.1)).filter fun u => isAdd u == true).length ≥ 1 then createSingle kb E S (rnd 0) true (summary E (L.map (·.2)) true) 0 NDir.empty else some NDir.empty) =
        some (if TA.isEmpty then NDir.empty else NDir.empty.write S (rnd 0) 0 true TA) ∧ TA.Nodup ∧ TA.length ≤ (left true (counted L)).length ∧
      (∀ t, t ∈ TA.map T3.triple ↔ t ∈ left true (counted L)) ∧ ∀ x ∈ TA, x.1 < 2 ^ 32 - 1 ∧ x.2.1 < 2 ^ 32 - 1 ∧ x.2.2 < 2 ^ 32 - 1 := by
    by_cases hc : ((L.map (·.1)).filter fun u => isAdd u == true).length ≥ 1
    · rw [if_pos hc]
      obtain ⟨u, hu, hk⟩ := filter_pos_iff.1 hc
      obtain ⟨v, hv, hvk⟩ := hseen u hu
      obtain ⟨o, ho, hgv⟩ := summary_gives hE true hL hnew (by omega) hv (hvk.trans hk)
      rw [ho]
      exact create_add (rnd 0) hgv (by have := llen true; omega) (hlid true) 0 NDir.empty
    · rw [if_neg hc]
      exact ⟨[], rfl, .nil, by simp, fun t => ⟨fun h => by simp at h, fun h => absurd h (emp true hc t)⟩, by simp⟩
  obtain ⟨TA, hA, ndA, lA, mA, iA⟩ := hadd
  generalize hN1 : (if TA.isEmpty then NDir.empty else NDir.empty.write S (rnd 0) 0 true TA) = N1 at hA
  have hdel : ∃ (TR : List T3), (if ((L.map (·.1)).filter fun u => isAdd u == false).length ≥ 1 then createSingle kb E S (rnd 1) false (summary E (L.map (·.2)) false)
          (if ((L.map (·.1)).filter fun u => isAdd u == true).length ≠ 0 then 1 else 0) N1 else some N1) =
        some (if TR.isEmpty then N1 else N1.write S (rnd 1) (if ((L.map (·.1)).filter fun u => isAdd u == true).length ≠ 0 then 1 else 0) false TR) ∧ TR.Nodup ∧ TR.length ≤ (left false (counted L)).length ∧
      (∀ t, t ∈ TR.map T3.triple ↔ t ∈ left false (counted L) ∧ t ∈ g) ∧ ∀ x ∈ TR, x.1 < 2 ^ 32 - 1 ∧ x.2.1 < 2 ^ 32 - 1 ∧ x.2.2 < 2 ^ 32 - 1 := by
    by_cases hc : ((L.map (·.1)).filter fun u => isAdd u == false).length ≥ 1
    · rw [if_pos hc]
      obtain ⟨u, hu, hk⟩ := filter_pos_iff.1 hc
      obtain ⟨v, hv, hvk⟩ := hseen u hu
      obtain ⟨o, ho, hgv⟩ := summary_gives hE false hL hnew (by omega) hv (hvk.trans hk)
      rw [ho]
      exact create_del hkb hE (by omega) hg hr (rnd 1) hgv (by have := llen false; omega) (hlid false) _ N1
    · rw [if_neg hc]
      exact ⟨[], rfl, .nil, by simp, fun t => ⟨fun h => by simp at h, fun h => absurd h.1 (emp false hc t)⟩, by simp⟩
  obtain ⟨TR, hR, ndR, lR, mR, iR⟩ := hdel
  have ndA' : (TA.map T3.triple).Nodup := List.pairwise_map.2 (ndA.imp fun hab e => hab (triple_inj e))
  have ndR' : (TR.map T3.triple).Nodup := List.pairwise_map.2 (ndR.imp fun hab e => hab (triple_inj e))
  have hl1 := llen true
  have hl2 := llen false
  have hN1ups : ∀ e ∈ N1.ups, e.1 = 0 ∧ TA.isEmpty = false := by
    rw [← hN1]
    by_cases ht : TA.isEmpty
    · rw [if_pos ht]; intro e he; simp [NDir.empty] at he
    · rw [if_neg ht]
      intro e he
      simp only [NDir.write, NDir.empty, insertNum, List.mem_singleton] at he
      exact ⟨by rw [he], by simpa using ht⟩
  have hD1 : DiskOk (TR.map T3.triple) N1.disk (batch true TA) := by
    rw [← hN1]
    unfold batch
    by_cases ht : TA.isEmpty
    · rw [if_pos ht, if_pos ht]; exact DiskOk.empty _
    · rw [if_neg ht, if_neg ht, ndir_write (by simp [NDir.empty])]
      refine (DiskOk.empty _).write hS (rnd 0) true TA iA (by omega) (by simp; omega) ⟨ndA', ?_⟩
      intro t h1 h2
      exact left_disjoint ((mA t).1 h1) ((mR t).1 h2).1
  have hbs : ((batch true TA).map (·.triples.length)).sum ≤ TA.length := by
    unfold batch
    by_cases ht : TA.isEmpty
    · rw [if_pos ht]; simp
    · rw [if_neg ht]; simp [request_triples]
  refine ⟨if TR.isEmpty then N1 else N1.write S (rnd 1) (if ((L.map (·.1)).filter fun u => isAdd u == true).length ≠ 0 then 1 else 0) false TR,
    TA, TR, ?_, ?_, ?_, ndA', ndR', mA, mR, by have := left_both (counted L); omega, ?_⟩
  · unfold newDiff
    simp only [e1, e2]
    rw [hA]
    simp only
    rw [hR]
  · have hw1 : N1.disk = wr S (rnd 0) true Disk.empty TA := by
      rw [← hN1]
      unfold wr
      by_cases ht : TA.isEmpty
      · rw [if_pos ht, if_pos ht]; rfl
      · rw [if_neg ht, if_neg ht, ndir_write (by simp [NDir.empty])]; rfl
    rw [← hw1]
    unfold wr
    by_cases ht : TR.isEmpty
    · rw [if_pos ht, if_pos ht]
    · rw [if_neg ht, if_neg ht, ndir_write (fun e he => by have := (hN1ups e he).1; omega)]
  · unfold batch
    by_cases ht : TR.isEmpty
    · rw [if_pos ht, if_pos ht, List.append_nil]; exact hD1
    · rw [if_neg ht, if_neg ht, ndir_write (fun e he => by have := (hN1ups e he).1; omega)]
      refine hD1.write hS (rnd 1) false TR iR (by omega) (by omega) ⟨ndR', ?_⟩
      intro t ht2
      have hin : t ∈ TR.map T3.triple := ht2
      unfold batch
      by_cases ht : TA.isEmpty
      · rw [if_pos ht]; exact hin
      · rw [if_neg ht]; exact List.mem_append.2 (.inl hin)
  · by_cases hta : TA.isEmpty
    · rw [if_pos hta] at hN1 ⊢
      subst hN1
      by_cases ht : TR.isEmpty
      · rw [if_pos ht, if_pos ht]; rfl
      · rw [if_neg ht, if_neg ht]; rfl
    · rw [if_neg hta] at hN1 ⊢
      have hone : ((L.map (·.1)).filter fun u => isAdd u == true).length ≠ 0 := by
        intro hz
        have hta' : TA ≠ [] := by simpa using hta
        obtain ⟨x, hx⟩ := List.exists_mem_of_ne_nil _ hta'
        exact emp true (by omega) x.triple ((mA _).1 (List.mem_map_of_mem hx))
      subst hN1
      by_cases ht : TR.isEmpty
      · rw [if_pos ht, if_pos ht]; rfl
      · rw [if_neg ht, if_neg ht, if_pos hone]; rfl

end Trident.Upd
