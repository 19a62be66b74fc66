import Verif.Update.Updater
import Verif.Update.QueryProofs
import Verif.Update.Diff3Size
/-! Helper proofs for updates (no property statements here). -/
namespace Trident.Upd
open Load Diff3

/-! ## `match` -/

/-- A triple of the input as the scan returns it. -/
def rowOf (t : T3) : Row3 := Order.spo.row t.triple

theorem rowOf_eq (t : T3) : rowOf t = ((t.1 : Int), (t.2.1 : Int), (t.2.2 : Int)) := rfl

theorem cmp_neg {k : Row3} {t : T3} : cmp k t < 0 ↔ Row3.lt k (rowOf t) := by
  rw [rowOf_eq]; unfold cmp; simp only [Row3.lt, Pair.lt]
  repeat' split
  all_goals omega

theorem cmp_zero {k : Row3} {t : T3} : cmp k t = 0 ↔ k = rowOf t := by
  rw [rowOf_eq]
  obtain ⟨a, b, c⟩ := k
  unfold cmp
  simp only [Prod.mk.injEq]
  repeat' split
  all_goals omega

variable {σ : Type} {I : Itr σ Row3}

/-- `kbitr` is at the first of the rows `R`; NULL if there are none. -/
def At (I : Itr σ Row3) : Option σ → List Row3 → Prop
  | none, R => R = []
  | some s, R => ∃ l, R = I.val s :: l ∧ Yields I s l

theorem advance_at {s : σ} {l : List Row3} (h : Yields I s l) : At I (advance I s) l := by
  unfold advance
  cases h with
  | done h => simp only [h]; rfl
  | step h1 h2 => simp only [h1]; exact ⟨_, rfl, h2⟩

theorem skipTo_at {t : T3} {R : List Row3} {n : Nat} {k : Option σ} (h : At I k R) (hn : R.length < n) :
    At I (skipTo I t n k) (R.dropWhile fun r => decide (Row3.lt r (rowOf t))) := by
  induction R generalizing n k with
  | nil =>
    cases k with
    | none => unfold skipTo; exact rfl
    | some s => obtain ⟨l, e, -⟩ := h; simp at e
  | cons r R ih =>
    cases k with
    | none => exact absurd h (by simp [At])
    | some s =>
      obtain ⟨l, e, hy⟩ := h
      rw [List.cons.injEq] at e
      obtain ⟨rfl, rfl⟩ := e
      cases n with
      | zero => simp at hn
      | succ n =>
        unfold skipTo
        by_cases hc : cmp (I.val s) t < 0
        · rw [if_pos hc, List.dropWhile_cons_of_pos (by simpa using cmp_neg.1 hc)]
          exact ih (advance_at hy) (by simpa using hn)
        · rw [if_neg hc, List.dropWhile_cons_of_neg (by simpa using mt cmp_neg.2 hc)]
          exact ⟨_, rfl, hy⟩

/-- What `match` keeps. -/
def keep (add : Bool) (R : List Row3) (t : T3) : Bool := if add then decide (rowOf t ∉ R) else decide (rowOf t ∈ R)

theorem mem_dropWhile {R : List Row3} {a b : Row3} (h : Row3.lt a b ∨ a = b) :
    b ∈ R.dropWhile (fun r => decide (Row3.lt r a)) ↔ b ∈ R := by
  constructor
  · exact fun hb => (List.dropWhile_sublist _).subset hb
  · intro hb
    rw [← List.takeWhile_append_dropWhile (p := fun r => decide (Row3.lt r a)) (l := R), List.mem_append] at hb
    rcases hb with hb | hb
    · have : ∀ (l : List Row3), b ∈ l.takeWhile (fun r => decide (Row3.lt r a)) → Row3.lt b a := by
        intro l hl
        induction l with
        | nil => simp at hl
        | cons x l ih =>
          by_cases hx : Row3.lt x a
          · rw [List.takeWhile_cons_of_pos (by simpa using hx)] at hl
            rcases List.mem_cons.1 hl with rfl | hl
            · exact hx
            · exact ih hl
          · rw [List.takeWhile_cons_of_neg (by simpa using hx)] at hl
            simp at hl
      have hba := this R hb
      rcases h with h | rfl
      · exact absurd (Row3.lt_trans hba h) (Row3.lt_irrefl _)
      · exact absurd hba (Row3.lt_irrefl _)
    · exact hb

theorem matchLoop_eq {add : Bool} {fuel : Nat} {R : List Row3} {k : Option σ} {ts : List T3} (h : At I k R) (hR : R.Pairwise Row3.lt)
    (hf : R.length < fuel) (hts : ts.Pairwise fun a b => Row3.lt (rowOf a) (rowOf b)) :
    matchLoop I add fuel k ts = ts.filter (keep add R) := by
  induction ts generalizing R k with
  | nil => unfold matchLoop; rfl
  | cons t ts ih =>
    rw [List.pairwise_cons] at hts
    have hs := skipTo_at (t := t) h hf
    generalize hR' : R.dropWhile (fun r => decide (Row3.lt r (rowOf t))) = R' at hs
    have hsub : R'.Sublist R := by rw [← hR']; exact List.dropWhile_sublist _
    have hmem : ∀ t' ∈ t :: ts, (rowOf t' ∈ R' ↔ rowOf t' ∈ R) := by
      intro t' ht'
      rw [← hR']
      refine mem_dropWhile ?_
      rcases List.mem_cons.1 ht' with rfl | ht'
      · exact .inr rfl
      · exact .inl (hts.1 t' ht')
    have hkeep : (t :: ts).filter (keep add R) = (t :: ts).filter (keep add R') := by
      apply List.filter_congr
      intro t' ht'
      simp only [keep, hmem t' ht']
    have hge : ∀ r ∈ R'.head?, ¬ Row3.lt r (rowOf t) := by
      intro r hr
      rw [← hR'] at hr
      have := List.head?_dropWhile_not (fun r => decide (Row3.lt r (rowOf t))) R
      rw [Option.mem_def.1 hr] at this
      simpa using this
    have hR2 : R'.Pairwise Row3.lt := hR.sublist hsub
    have hf2 : R'.length < fuel := Nat.lt_of_le_of_lt hsub.length_le hf
    rw [hkeep]
    clear hkeep hmem hR'
    unfold matchLoop
    cases hsk : skipTo I t fuel k with
    | none =>
      rw [hsk] at hs
      have : R' = [] := hs
      subst this
      simp only
      cases add with
      | true => rw [if_pos rfl]; exact (List.filter_eq_self.2 (by simp [keep])).symm
      | false => exact (List.filter_eq_nil_iff.2 (by simp [keep])).symm
    | some s =>
      rw [hsk] at hs
      have hs' := hs
      obtain ⟨l, e, hy⟩ := hs
      simp only
      have hnlt : ¬ Row3.lt (I.val s) (rowOf t) := hge _ (by rw [e]; rfl)
      have hin : rowOf t ∈ R' ↔ I.val s = rowOf t := by
        constructor
        · intro hin
          rw [e] at hin hR2
          rcases List.mem_cons.1 hin with e' | e'
          · exact e'.symm
          · exact absurd ((List.pairwise_cons.1 hR2).1 _ e') hnlt
        · intro e'; rw [e, ← e']; simp
      have hrec := ih (R := R') (k := some s) hs' hR2 hf2 hts.2
      cases add with
      | true =>
        rw [if_pos rfl]
        by_cases hc : cmp (I.val s) t = 0
        · rw [if_neg (by simpa using hc), List.filter_cons_of_neg, hrec]
          simp [keep, hin, cmp_zero.1 hc]
        · rw [if_pos hc, List.filter_cons_of_pos, hrec]
          simp only [keep, if_true, decide_eq_true_eq, hin]
          exact fun e' => hc (cmp_zero.2 e')
      | false =>
        rw [if_neg (by simp)]
        by_cases hc : cmp (I.val s) t = 0
        · rw [if_pos hc, List.filter_cons_of_pos (by simp [keep, hin, cmp_zero.1 hc])]
          have hadv := advance_at hy
          rw [e] at hR2 hf2
          rw [List.pairwise_cons] at hR2
          have htail : ts.filter (keep false R') = ts.filter (keep false l) := by
            apply List.filter_congr
            intro t' ht'
            have hne : rowOf t' ≠ I.val s := by
              rw [cmp_zero.1 hc]
              intro e'
              have := hts.1 t' ht'
              rw [e'] at this
              exact Row3.lt_irrefl _ this
            simp only [keep]
            rw [e]
            simp [hne]
          rw [htail]
          cases ha : advance I s with
          | none =>
            rw [ha] at hadv
            have : l = [] := hadv
            subst this
            simp [keep]
          | some s' =>
            rw [ha] at hadv
            simp only
            rw [ih hadv hR2.2 (by simp at hf2; omega) hts.2]
        · rw [if_neg hc, List.filter_cons_of_neg, hrec]
          simp only [keep]
          simp only [Bool.false_eq_true, if_false, decide_eq_true_eq, hin]
          exact fun e' => hc (cmp_zero.2 e')

theorem matched_eq {add : Bool} {fuel : Nat} {R : List Row3} {s : σ} {ts : List T3} (h : Yields I s R) (hR : R.Pairwise Row3.lt)
    (hf : R.length < fuel) (hts : ts.Pairwise fun a b => Row3.lt (rowOf a) (rowOf b)) :
    matched I add fuel s ts = ts.filter (keep add R) :=
  matchLoop_eq (advance_at h) hR hf hts

/-! ## The input -/

/-- Not after, in lexicographic order. -/
def T3.le (a b : T3) : Prop := ¬ Row3.lt (rowOf b) (rowOf a)

theorem rowOf_inj {a b : T3} (h : rowOf a = rowOf b) : a = b := by
  obtain ⟨a1, a2, a3⟩ := a
  obtain ⟨b1, b2, b3⟩ := b
  simp only [rowOf_eq, Prod.mk.injEq, Int.ofNat_inj] at h
  obtain ⟨h1, h2, h3⟩ := h
  rw [h1, h2, h3]

theorem unique_spec (l : List T3) (h : l.Pairwise T3.le) :
    (unique l).Pairwise (fun a b => Row3.lt (rowOf a) (rowOf b)) ∧ ∀ t, t ∈ unique l ↔ t ∈ l := by
  fun_induction unique l with
  | case1 x l ih =>
    obtain ⟨i1, i2⟩ := ih (List.pairwise_cons.1 h).2
    exact ⟨i1, fun t => by rw [i2]; simp⟩
  | case2 x y l hne ih =>
    rw [List.pairwise_cons] at h
    obtain ⟨i1, i2⟩ := ih h.2
    refine ⟨List.pairwise_cons.2 ⟨fun t ht => ?_, i1⟩, fun t => by rw [List.mem_cons, i2, List.mem_cons (a := t) (b := x)]⟩
    have ht := (i2 t).1 ht
    have h1 := h.1 y (by simp)
    have hxy : Row3.lt (rowOf x) (rowOf y) := Classical.byContradiction fun hc => hne (rowOf_inj (Row3.eq_of_not_lt hc h1))
    rcases List.mem_cons.1 ht with rfl | ht
    · exact hxy
    · have h2 := (List.pairwise_cons.1 h.2).1 t ht
      by_cases e : Row3.lt (rowOf y) (rowOf t)
      · exact Row3.lt_trans hxy e
      · rw [← Row3.eq_of_not_lt e h2]; exact hxy
  | case3 l hl =>
    refine ⟨?_, fun t => Iff.rfl⟩
    match l with
    | [] => exact .nil
    | [x] => simp
    | x :: y :: l => exact absurd rfl (hl x y l)

theorem rowLe_le {a b : T3} (h : rowLe a b) : T3.le a b := by
  unfold rowLe at h
  unfold T3.le
  simp only [rowOf_eq, Row3.lt, Pair.lt]
  omega

/-! ## The directory of updates -/

/-- The directory holds the history `us` of batches. -/
structure DiskOk (g : List Triple) (D : Disk) (us : List Update) : Prop where
  len : D.ups.length = us.length
  ups : ∀ i (h : i < us.length) (h' : i < D.ups.length), D.ups[i].add = isAdd us[i] ∧
    ∀ M : Mapping, M.Of D → DiffOk (openDiff D.ups[i].add M.mem (if D.ups[i].small then M.gbase else M.obase i) D.ups[i].out) us[i].triples
  fresh : FreshAll g us
  size : ∀ d : Order, (D.glob d.idx).length ≤ 16 * (us.map (·.triples.length)).sum

theorem DiskOk.empty (g : List Triple) : DiskOk g Disk.empty [] where
  len := rfl
  ups i h := absurd h (by simp)
  fresh := trivial
  size d := by simp [Disk.empty]

theorem DiskOk.opened {g D us} (h : DiskOk g D us) {M : Mapping} (hM : M.Of D) :
    (D.opened M).length = us.length ∧
    ∀ i (_ : i < us.length) (h' : i < (D.opened M).length), (D.opened M)[i].add = isAdd us[i] ∧ DiffOk (D.opened M)[i] us[i].triples := by
  constructor
  · rw [Disk.opened, List.length_mapIdx, h.len]
  · intro i hi hi'
    have hi'' : i < D.ups.length := by rw [h.len]; exact hi
    obtain ⟨a, b⟩ := h.ups i hi hi''
    have e : (D.opened M)[i] = openDiff D.ups[i].add M.mem (if D.ups[i].small then M.gbase else M.obase i) D.ups[i].out := by
      simp only [Disk.opened, List.getElem_mapIdx]
    rw [e]
    exact ⟨a, b M hM⟩

theorem applyAll_append (g : List Triple) (us : List Update) (u : Update) : applyAll g (us ++ [u]) = u.apply (applyAll g us) := by
  simp [applyAll, List.foldl_append]

theorem freshAll_append {g : List Triple} {us : List Update} {u : Update} (h : FreshAll g us) (hu : u.Fresh (applyAll g us)) : FreshAll g (us ++ [u]) := by
  induction us generalizing g with
  | nil => exact ⟨hu, trivial⟩
  | cons v us ih => exact ⟨h.1, ih h.2 hu⟩

/-- A batch as the specification has it. -/
def request (add : Bool) (ts : List T3) : Update := if add then .add (ts.map T3.triple) else .del (ts.map T3.triple)

theorem request_triples (add ts) : (request add ts).triples = ts.map T3.triple := by unfold request; split <;> rfl

theorem request_isAdd (add ts) : isAdd (request add ts) = add := by cases add <;> rfl

theorem DiskOk.write {g : List Triple} {D : Disk} {us : List Update} (h : DiskOk g D us) {S : Sorts} (hS : S.Ok) (rnd : Nat → Nat → Bool × Bool) (add : Bool) (ts : List T3)
    (hids : ∀ t ∈ ts, t.1 < 2 ^ 32 - 1 ∧ t.2.1 < 2 ^ 32 - 1 ∧ t.2.2 < 2 ^ 32 - 1) (hlen : ts.length < 2 ^ 24)
    (htot : (us.map (·.triples.length)).sum + ts.length < 2 ^ 27) (hfresh : (request add ts).Fresh (applyAll g us)) :
    DiskOk g (D.write S rnd add ts) (us ++ [request add ts]) := by
  have hbl := build_length hS rnd D.glob ts hlen
  have hB : BuildOk S rnd D.glob ts := ⟨hS, hids, hlen, fun d => by have := hbl d; have := h.size d; omega⟩
  have hprev : ∀ M : Mapping, M.Of (D.write S rnd add ts) → M.Of D := by
    intro M hM
    constructor
    · intro d
      have := hM.1 d
      unfold Disk.write at this
      by_cases hs : ts.length < USEGLOBAL
      · obtain ⟨x, hx⟩ := build_prefix (S := S) rnd D.glob ts hs d
        simp only [if_pos hs] at this
        rw [hx, placed_append] at this
        exact this.1
      · simp only [if_neg hs] at this
        exact this
    · intro i u hu
      refine hM.2 i u ?_
      show (D.ups ++ _)[i]? = some u
      rw [List.getElem?_append_left (List.getElem?_eq_some_iff.1 hu).1, hu]
  refine ⟨?_, ?_, freshAll_append h.fresh hfresh, ?_⟩
  · show (D.ups ++ _).length = _
    rw [List.length_append, List.length_append, h.len]; rfl
  · intro i hi hi'
    by_cases hiu : i < us.length
    · have hiD : i < D.ups.length := by rw [h.len]; exact hiu
      have e1 : (D.write S rnd add ts).ups[i] = D.ups[i] := by
        show (D.ups ++ _)[i] = _
        exact List.getElem_append_left hiD
      have e2 : (us ++ [request add ts])[i] = us[i] := List.getElem_append_left hiu
      rw [e1, e2]
      obtain ⟨a, b⟩ := h.ups i hiu hiD
      exact ⟨a, fun M hM => b M (hprev M hM)⟩
    · have hie : i = us.length := by simp at hi; omega
      subst hie
      have e1 : (D.write S rnd add ts).ups[us.length] = ⟨add, decide (ts.length < USEGLOBAL), build S rnd D.glob ts⟩ := by
        have h0 : us.length < (D.ups ++ [(⟨add, decide (ts.length < USEGLOBAL), build S rnd D.glob ts⟩ : Stored)]).length := hi'
        show (D.ups ++ [_])[us.length]'h0 = _
        rw [List.getElem_append_right (by rw [h.len]; exact Nat.le_refl _)]
        simp [h.len]
      have e2 : (us ++ [request add ts])[us.length] = request add ts := by simp
      rw [e1, e2, request_triples, request_isAdd]
      refine ⟨rfl, fun M hM => hB.diffOk add fun d => ?_⟩
      by_cases hs : ts.length < USEGLOBAL
      · simp only [hs, decide_true, if_true]
        have := hM.1 d
        unfold Disk.write at this
        simp only [if_pos hs] at this
        exact this
      · rw [if_neg (by simpa using hs)]
        refine hM.2 us.length ⟨add, decide (ts.length < USEGLOBAL), build S rnd D.glob ts⟩ ?_ (by simpa using hs) d
        show (D.ups ++ _)[us.length]? = some ⟨add, decide (ts.length < USEGLOBAL), build S rnd D.glob ts⟩
        rw [List.getElem?_append_right (by rw [h.len]; exact Nat.le_refl _)]
        simp [h.len]
  · intro d
    have h1 := hbl d
    have h2 := h.size d
    have e : ((us ++ [request add ts]).map (·.triples.length)).sum = (us.map (·.triples.length)).sum + ts.length := by
      simp [request_triples]
    rw [e]
    unfold Disk.write
    by_cases hs : ts.length < USEGLOBAL
    · simp only [if_pos hs]; omega
    · simp only [if_neg hs]; omega

theorem triple_inj {a b : T3} (h : T3.triple a = T3.triple b) : a = b := rowOf_inj (by unfold rowOf; rw [h])

/-- One update: what is stored. -/
theorem pending_spec {kb : KB} {g : List Triple} (h : Loaded kb g) {E : UEnv} (hE : E.Ok) {S : Sorts} (hS : S.Ok)
    {D : Disk} {us : List Update} (hD : DiskOk g D us) {M : Mapping} (hM : M.Of D) (hf : g.length + (us.map (·.triples.length)).sum < E.fuel)
    (hg : g ≠ []) (hr : kb.Reads .spo) (add : Bool) (input : List T3) :
    ∃ ts : List T3, pending kb E S M D add input = some ts ∧ ts.Nodup ∧ ts.length ≤ input.length ∧
      ∀ t, t ∈ ts ↔ t ∈ input ∧ (if add then T3.triple t ∉ applyAll g us else T3.triple t ∈ applyAll g us) := by
  obtain ⟨o1, o2⟩ := hD.opened hM
  obtain ⟨out, ⟨o, e, hy⟩, hs, hmem⟩ := updates_query h hE us (D.opened M) o1 .spo (fun i a b => ⟨(o2 i a b).1, (o2 i a b).2.at _⟩) hD.fresh hf ⟨none, none, none⟩ (by intro x v hv; cases x <;> simp [Pattern.at] at hv) hr
    (by simp [Pattern.at, Order.positions]) (by simp [Pattern.at, Order.positions]) (.inl hg)
  have e : kb.getIteratorU E (D.opened M) 0 (-1) (-1) (-1) = .itr o := e
  have hin := (hS.triples input)
  obtain ⟨u1, u2⟩ := unique_spec (S.triples input) (hin.1.imp rowLe_le)
  have hrow : ∀ r, r ∈ out ↔ ∃ t ∈ applyAll g us, Order.spo.row t = r := by
    intro r
    rw [hmem]
    constructor
    · rintro ⟨t, a, -, b⟩; exact ⟨t, a, b⟩
    · rintro ⟨t, a, b⟩; exact ⟨t, a, by intro x v hv; cases x <;> simp [Pattern.at] at hv, b⟩
  have hin2 : ∀ t : T3, rowOf t ∈ out ↔ T3.triple t ∈ applyAll g us := by
    intro t
    rw [hrow]
    constructor
    · rintro ⟨t', a, b⟩
      have : t' = T3.triple t := Order.eq_of_row .spo (congrArg (fun r : Row3 => r.1) b) (congrArg (fun r : Row3 => r.2) b)
      rw [← this]; exact a
    · intro a; exact ⟨_, a, rfl⟩
  have hol : out.length < E.fuel := by
    have h1 : out.length ≤ ((applyAll g us).map Order.spo.row).length := by
      apply length_le_of_nodup_subset (row3_strict.nodup hs)
      intro r hr
      obtain ⟨t, a, b⟩ := (hrow r).1 hr
      exact List.mem_map.2 ⟨t, a, b⟩
    have h2 : ∀ (us : List Update) (g : List Triple), (applyAll g us).length ≤ g.length + (us.map (·.triples.length)).sum := by
      intro us
      induction us with
      | nil => intro g; simp [applyAll]
      | cons u us ih =>
        intro g
        have := ih (u.apply g)
        have hal : (u.apply g).length ≤ g.length + u.triples.length := by
          cases u with
          | add ts => simp [Update.apply, Update.triples]
          | del ts =>
            have := List.length_filter_le (fun t => decide (t ∉ ts)) g
            simp only [Update.apply]; omega
        show (applyAll (u.apply g) us).length ≤ _
        simp only [List.map_cons, List.sum_cons]
        omega
    have := h2 us g
    rw [List.length_map] at h1
    omega
  have hm := matched_eq (add := add) hy hs hol u1
  refine ⟨(unique (S.triples input)).filter (keep add out), ?_, ?_, ?_, fun t => ?_⟩
  · unfold pending
    rw [e]
    simp only
    rw [hm]
  · refine List.Pairwise.filter _ ?_
    refine List.Pairwise.imp (fun {a b} hab => ?_) u1
    intro e'; rw [e'] at hab; exact Row3.lt_irrefl _ hab
  · refine Nat.le_trans (List.length_filter_le _ _) ?_
    have hn : (unique (S.triples input)).Nodup := List.Pairwise.imp (fun {a b} hab => by intro e'; rw [e'] at hab; exact Row3.lt_irrefl _ hab) u1
    have := length_le_of_nodup_subset hn (l' := S.triples input) (fun t ht => (u2 t).1 ht)
    rw [hin.2.length_eq] at this
    exact this
  · rw [List.mem_filter, u2, hin.2.mem_iff]
    cases add with
    | true => simp [keep, hin2]
    | false => simp [keep, hin2]

theorem update_spec {kb : KB} {g : List Triple} (h : Loaded kb g) {E : UEnv} (hE : E.Ok) {S : Sorts} (hS : S.Ok) (rnd : Nat → Nat → Bool × Bool)
    {D : Disk} {us : List Update} (hD : DiskOk g D us) {M : Mapping} (hM : M.Of D) (hf : g.length + (us.map (·.triples.length)).sum < E.fuel)
    (hg : g ≠ []) (hr : kb.Reads .spo) (add : Bool) (input : List T3) :
    ∃ ts : List T3, update kb E S rnd M D add input = some (if ts.isEmpty then D else D.write S rnd add ts) ∧ ts.Nodup ∧ ts.length ≤ input.length ∧
      ∀ t, t ∈ ts ↔ t ∈ input ∧ (if add then T3.triple t ∉ applyAll g us else T3.triple t ∈ applyAll g us) := by
  obtain ⟨ts, a, b⟩ := pending_spec h hE hS hD hM hf hg hr add input
  refine ⟨ts, ?_, b⟩
  unfold update
  rw [a]; rfl

theorem holdsAfter_congr {P Q : Triple → Prop} (h : ∀ t, P t ↔ Q t) (us : List Update) (t : Triple) : holdsAfter P us t ↔ holdsAfter Q us t := by
  have : P = Q := funext fun t => propext (h t)
  rw [this]

/-- The limits on a history of updates: ids below `2^32 - 1`, fewer than `2^24` triples per batch, fewer than `2^27` in all. -/
structure OpsFit (ops : List (Bool × List T3)) : Prop where
  ids : ∀ u ∈ ops, ∀ t ∈ u.2, t.1 < 2 ^ 32 - 1 ∧ t.2.1 < 2 ^ 32 - 1 ∧ t.2.2 < 2 ^ 32 - 1
  len : ∀ u ∈ ops, u.2.length < 2 ^ 24

/-- The size of all batches. -/
def volume (ops : List (Bool × List T3)) : Nat := (ops.map (·.2.length)).sum

/-- `Q` stands for anything kept by the writing of an update. -/
theorem updates_spec_with {kb : KB} {g : List Triple} (h : Loaded kb g) {E : UEnv} (hE : E.Ok) {S : Sorts} (hS : S.Ok) (rnd : Nat → Nat → Nat → Bool × Bool)
    (hg : g ≠ []) (hr : kb.Reads .spo) {M : Nat → Disk → Mapping} (hM : ∀ n D, (M n D).Of D)
    {all : List (Bool × List T3)} {Q : Disk → List Update → Prop} (hQ : ∀ n D us u ts, u ∈ all → Q D us → ts.Nodup → (∀ t ∈ ts, t ∈ u.2) →
      (∀ t ∈ ts, t.1 < 2 ^ 32 - 1 ∧ t.2.1 < 2 ^ 32 - 1 ∧ t.2.2 < 2 ^ 32 - 1) → Q (D.write S (rnd n) u.1 ts) (us ++ [request u.1 ts]))
    (ops : List (Bool × List T3)) (hall : ∀ u ∈ ops, u ∈ all) (n : Nat)
    {D : Disk} {us : List Update} (hD : DiskOk g D us) (hQ0 : Q D us) (hfit : OpsFit ops) (hvol : (us.map (·.triples.length)).sum + volume ops < 2 ^ 27)
    (hf : g.length + (us.map (·.triples.length)).sum + volume ops < E.fuel) :
    ∃ D' us', updates kb E S rnd M n D ops = some D' ∧ DiskOk g D' us' ∧ Q D' us' ∧
      (us'.map (·.triples.length)).sum ≤ (us.map (·.triples.length)).sum + volume ops ∧
      ∀ t, t ∈ applyAll g us' ↔ holdsAfter (· ∈ applyAll g us) (ops.map fun u => request u.1 u.2) t := by
  induction ops generalizing n D us with
  | nil => exact ⟨D, us, rfl, hD, hQ0, by simp [volume], fun t => Iff.rfl⟩
  | cons u ops ih =>
    have hv : volume (u :: ops) = u.2.length + volume ops := rfl
    obtain ⟨ts, e, nd, hl, hmem⟩ := update_spec h hE hS (rnd n) hD (hM n D) (by omega) hg hr u.1 u.2
    have hfit' : OpsFit ops := ⟨fun v hv => hfit.ids v (List.mem_cons_of_mem _ hv), fun v hv => hfit.len v (List.mem_cons_of_mem _ hv)⟩
    unfold updates
    simp only [e]
    have hsem : ∀ t, (t ∈ applyAll g (us ++ [request u.1 ts]) ↔ if u.1 then t ∈ applyAll g us ∨ t ∈ u.2.map T3.triple else t ∈ applyAll g us ∧ t ∉ u.2.map T3.triple) := by
      intro t
      rw [applyAll_append]
      obtain ⟨add, input⟩ := u
      cases add with
      | true =>
        show t ∈ applyAll g us ++ ts.map T3.triple ↔ t ∈ applyAll g us ∨ t ∈ input.map T3.triple
        rw [List.mem_append]
        constructor
        · rintro (a | a)
          · exact .inl a
          · obtain ⟨x, hx, rfl⟩ := List.mem_map.1 a
            exact .inr (List.mem_map.2 ⟨x, ((hmem x).1 hx).1, rfl⟩)
        · rintro (a | a)
          · exact .inl a
          · obtain ⟨x, hx, rfl⟩ := List.mem_map.1 a
            by_cases hx2 : x.triple ∈ applyAll g us
            · exact .inl hx2
            · exact .inr (List.mem_map.2 ⟨x, (hmem x).2 ⟨hx, hx2⟩, rfl⟩)
      | false =>
        show t ∈ (applyAll g us).filter (fun t => decide (t ∉ ts.map T3.triple)) ↔ t ∈ applyAll g us ∧ t ∉ input.map T3.triple
        rw [List.mem_filter, decide_eq_true_eq]
        refine and_congr_right fun ht => not_congr ?_
        constructor
        · intro a
          obtain ⟨x, hx, rfl⟩ := List.mem_map.1 a
          exact List.mem_map.2 ⟨x, ((hmem x).1 hx).1, rfl⟩
        · intro a
          obtain ⟨x, hx, rfl⟩ := List.mem_map.1 a
          exact List.mem_map.2 ⟨x, (hmem x).2 ⟨hx, ht⟩, rfl⟩
    have hstep : ∀ t, holdsAfter (· ∈ applyAll g (us ++ [request u.1 ts])) (ops.map fun u => request u.1 u.2) t ↔
        holdsAfter (· ∈ applyAll g us) ((u :: ops).map fun u => request u.1 u.2) t := by
      intro t
      obtain ⟨add, input⟩ := u
      cases add with
      | true => exact holdsAfter_congr (fun t => hsem t) _ _
      | false => exact holdsAfter_congr (fun t => hsem t) _ _
    cases ts with
    | nil =>
      have e1 : applyAll g (us ++ [request u.1 []]) = applyAll g us := by
        rw [applyAll_append]
        unfold request
        split
        · simp [Update.apply]
        · simp [Update.apply]
      simp only [List.isEmpty_nil, if_true]
      obtain ⟨D', us', a, b, q, c, d⟩ := ih (fun v hv => hall v (List.mem_cons_of_mem _ hv)) (n + 1) hD hQ0 hfit' (by omega) (by omega)
      refine ⟨D', us', a, b, q, by omega, fun t => (d t).trans ?_⟩
      rw [← hstep, e1]
    | cons x ts =>
      generalize hts : x :: ts = ts' at *
      have hne : ts'.isEmpty = false := by rw [← hts]; rfl
      simp only [hne, Bool.false_eq_true, if_false]
      have hfr : (request u.1 ts').Fresh (applyAll g us) := by
        have hnd : (ts'.map T3.triple).Nodup := by
          refine List.pairwise_map.2 (nd.imp fun {a b} hab => ?_)
          intro e; exact hab (triple_inj e)
        have hall' : ∀ t ∈ ts'.map T3.triple, if u.1 then t ∉ applyAll g us else t ∈ applyAll g us := by
          intro t ht
          obtain ⟨y, hy, rfl⟩ := List.mem_map.1 ht
          exact ((hmem y).1 hy).2
        obtain ⟨add, input⟩ := u
        cases add with
        | true => exact ⟨hnd, hall'⟩
        | false => exact ⟨hnd, hall'⟩
      have hw := hD.write hS (rnd n) u.1 ts' (fun t ht => hfit.ids u List.mem_cons_self t ((hmem t).1 ht).1)
        (by have := hfit.len u List.mem_cons_self; omega) (by omega) hfr
      have hsum : ((us ++ [request u.1 ts']).map (·.triples.length)).sum = (us.map (·.triples.length)).sum + ts'.length := by
        simp [request_triples]
      have hq' := hQ n _ _ u ts' (hall u List.mem_cons_self) hQ0 nd (fun t ht => ((hmem t).1 ht).1) (fun t ht => hfit.ids u List.mem_cons_self t ((hmem t).1 ht).1)
      obtain ⟨D', us', a, b, q, c, d⟩ := ih (fun v hv => hall v (List.mem_cons_of_mem _ hv)) (n + 1) hw hq' hfit' (by omega) (by omega)
      exact ⟨D', us', a, b, q, by omega, fun t => (d t).trans (hstep t)⟩

theorem updates_spec {kb : KB} {g : List Triple} (h : Loaded kb g) {E : UEnv} (hE : E.Ok) {S : Sorts} (hS : S.Ok) (rnd : Nat → Nat → Nat → Bool × Bool)
    (hg : g ≠ []) (hr : kb.Reads .spo) {M : Nat → Disk → Mapping} (hM : ∀ n D, (M n D).Of D) (ops : List (Bool × List T3)) (n : Nat)
    {D : Disk} {us : List Update} (hD : DiskOk g D us) (hfit : OpsFit ops) (hvol : (us.map (·.triples.length)).sum + volume ops < 2 ^ 27)
    (hf : g.length + (us.map (·.triples.length)).sum + volume ops < E.fuel) :
    ∃ D' us', updates kb E S rnd M n D ops = some D' ∧ DiskOk g D' us' ∧
      (us'.map (·.triples.length)).sum ≤ (us.map (·.triples.length)).sum + volume ops ∧
      ∀ t, t ∈ applyAll g us' ↔ holdsAfter (· ∈ applyAll g us) (ops.map fun u => request u.1 u.2) t := by
  obtain ⟨D', us', a, b, -, c⟩ := updates_spec_with h hE hS rnd hg hr hM (all := ops) (Q := fun _ _ => True) (fun _ _ _ _ _ _ _ _ _ _ => trivial) ops (fun _ h => h) n hD trivial hfit hvol hf
  exact ⟨D', us', a, b, c⟩

/-- The files can be mapped. -/
theorem exists_mapping (D : Disk) : ∃ M : Mapping, M.Of D := by
  generalize hB : (fun j => if j < 6 then D.glob j else match D.ups[j / 6 - 1]? with
    | some u => fileOf u.out (j % 6)
    | none => []) = B
  obtain ⟨m, hm⟩ := exists_mem B
  refine ⟨⟨m, fun d => blobBase B d, fun i d => blobBase B (6 * (i + 1) + d)⟩, fun d => ?_, fun i u hu _ d => ?_⟩
  · have hd : d.idx < 6 := by cases d <;> decide
    have := hm d.idx
    rw [show B d.idx = D.glob d.idx by rw [← hB]; simp only [if_pos hd]] at this
    exact this
  · have hd : d.idx < 6 := by cases d <;> decide
    have := hm (6 * (i + 1) + d.idx)
    rw [show B (6 * (i + 1) + d.idx) = fileOf u.out d.idx by
      rw [← hB]
      simp only [if_neg (show ¬ 6 * (i + 1) + d.idx < 6 by omega), show (6 * (i + 1) + d.idx) / 6 - 1 = i by omega, hu, show (6 * (i + 1) + d.idx) % 6 = d.idx by omega]] at this
    exact this

end Trident.Upd
