import Verif.Update.UpdaterProofs
/-!
Helper proofs: what queries return when the updates on disk are not fresh (after merges and crashes).  The answer is a list in which triples
may be repeated (no property statements here).
-/
namespace Trident
namespace Upd

variable {α : Type} {lt : α → α → Prop}

/-- Not after. -/
def Weak (lt : α → α → Prop) (a b : α) : Prop := ¬ lt b a

theorem Strict.weak_trans (h : Strict lt) {a b c : α} (h1 : Weak lt a b) (h2 : Weak lt b c) : Weak lt a c := by
  intro h3
  apply Classical.byContradiction
  intro _
  by_cases e : lt a b
  · exact h2 (h.trans h3 e)
  · have := h.tri e h1
    subst this
    exact h2 h3

theorem Strict.perm_eq (h : Strict lt) {l l' : List α} (hl : l.Pairwise (Weak lt)) (hl' : l'.Pairwise (Weak lt)) (hp : l.Perm l') : l = l' := by
  induction l generalizing l' with
  | nil => simpa using hp.symm
  | cons x l ih =>
    cases l' with
    | nil => simp at hp
    | cons y l' =>
      rw [List.pairwise_cons] at hl hl'
      have h1 : Weak lt x y := by
        rcases List.mem_cons.1 (hp.mem_iff.2 (List.mem_cons_self (a := y))) with e | e
        · rw [e]; exact h.irrefl _
        · exact hl.1 y e
      have h2 : Weak lt y x := by
        rcases List.mem_cons.1 (hp.mem_iff.1 (List.mem_cons_self (a := x))) with e | e
        · rw [e]; exact h.irrefl _
        · exact hl'.1 x e
      have := h.tri h2 h1
      subst this
      rw [ih hl.2 hl'.2 hp.cons_inv]

theorem Strict.exists_weak (h : Strict lt) (l : List α) : ∃ out : List α, out.Pairwise (Weak lt) ∧ out.Perm l := by
  induction l with
  | nil => exact ⟨[], .nil, .nil⟩
  | cons x l ih =>
    obtain ⟨out, h1, h2⟩ := ih
    have : ∃ out' : List α, out'.Pairwise (Weak lt) ∧ out'.Perm (x :: out) := by
      clear h2
      induction out with
      | nil => exact ⟨[x], by simp, .refl _⟩
      | cons y out ih =>
        rw [List.pairwise_cons] at h1
        by_cases hlt : lt y x
        · obtain ⟨o, o1, o2⟩ := ih h1.2
          refine ⟨y :: o, List.pairwise_cons.2 ⟨fun z hz => ?_, o1⟩, (o2.cons y).trans (List.Perm.swap _ _ _)⟩
          rcases List.mem_cons.1 (o2.mem_iff.1 hz) with rfl | hz
          · exact fun h' => h.irrefl _ (h.trans hlt h')
          · exact h1.1 z hz
        · refine ⟨x :: y :: out, ?_, .refl _⟩
          refine List.pairwise_cons.2 ⟨fun z hz => ?_, List.pairwise_cons.2 h1⟩
          rcases List.mem_cons.1 hz with rfl | hz
          · exact hlt
          · exact h.weak_trans hlt (h1.1 z hz)
    obtain ⟨out', h3, h4⟩ := this
    exact ⟨out', h3, h4.trans (h2.cons x)⟩

/-- Every deletion that has something asked for finds something asked for. -/
def DelOk (P : Triple → Bool) : List Triple → List Update → Prop
  | _, [] => True
  | g, u :: us => (isAdd u = false → u.triples.filter P ≠ [] → g.filter P ≠ []) ∧ DelOk P (u.apply g) us

theorem FreshAll.delOk (P : Triple → Bool) {g : List Triple} {us : List Update} (h : FreshAll g us) : DelOk P g us := by
  induction us generalizing g with
  | nil => trivial
  | cons u us ih =>
    refine ⟨fun ha hne => ?_, ih h.2⟩
    cases u with
    | add ts => simp [isAdd] at ha
    | del ts =>
      obtain ⟨t, ht⟩ := List.exists_mem_of_ne_nil _ hne
      obtain ⟨h1, h2⟩ := List.mem_filter.1 ht
      exact List.ne_nil_of_mem (List.mem_filter.2 ⟨h.1.2 t h1, h2⟩)

variable [BEq α] [LawfulBEq α] {O : Type 1} {K : Ops O} {G : O → List α → Prop} {R : O → Prop} {fuel : Nat}

theorem filter_del {P : Triple → Bool} {f : Triple → α} (hinj : ∀ t t', P t → P t' → f t = f t' → t = t') {g ts : List Triple} {cur dl : List α}
    (hcur : cur.Perm ((g.filter P).map f)) (hdl : dl.Perm ((ts.filter P).map f)) :
    (cur.filter fun x => decide (x ∉ dl)).Perm (((g.filter fun t => decide (t ∉ ts)).filter P).map f) := by
  refine (hcur.filter _).trans ?_
  rw [List.filter_map, List.filter_filter, List.filter_filter]
  refine List.Perm.map f (List.Perm.of_eq (List.filter_congr fun t _ => ?_))
  cases hp : P t with
  | false => simp
  | true =>
    simp only [Function.comp, Bool.and_true, Bool.true_and, decide_eq_decide]
    refine not_congr ?_
    rw [hdl.mem_iff, List.mem_map]
    constructor
    · rintro ⟨t', h1, h2⟩
      obtain ⟨h1, h3⟩ := List.mem_filter.1 h1
      rw [← hinj _ _ h3 hp h2]; exact h1
    · intro h1
      exact ⟨t, List.mem_filter.2 ⟨h1, hp⟩, rfl⟩

theorem apply_length_le (g : List Triple) (u : Update) : (u.apply g).length ≤ g.length + u.triples.length := by
  cases u with
  | add ts => simp [Update.apply, Update.triples]
  | del ts =>
    have := List.length_filter_le (fun t => decide (t ∉ ts)) g
    simp only [Update.apply]; omega

/-- One step, when it is defined. -/
theorem step_bag (hO : Strict lt) (hK : OpsOk K (List.Pairwise (Weak lt)) G R fuel) {sec : Bool} {P : Triple → Bool} {f : Triple → α}
    (hinj : ∀ t t', P t → P t' → f t = f t' → t = t') (u : Update) (d : Bool × O)
    (hadd : d.1 = isAdd u) {dl : List α} (hG : G d.2 dl) (hsel : dl.Perm ((u.triples.filter P).map f))
    {g : List Triple} (hdel : isAdd u = false → u.triples.filter P ≠ [] → g.filter P ≠ []) (hlen : g.length < fuel) (hlen' : u.triples.length < fuel)
    {a : Acc O} {cur : List α} (ha : Inv (List.Pairwise (Weak lt)) G R a cur) (hcur : cur.Perm ((g.filter P).map f)) :
    ∃ a' cur', step K sec a d = some a' ∧ Inv (List.Pairwise (Weak lt)) G R a' cur' ∧ cur'.Perm (((u.apply g).filter P).map f) := by
  have hl : ∀ {l : List α} {ts : List Triple}, l.Perm ((ts.filter P).map f) → l.length ≤ ts.length := by
    intro l ts h
    have := h.length_eq
    rw [List.length_map] at this
    have := List.length_filter_le P ts
    omega
  cases u with
  | add ts =>
    have hd1 : d = (true, d.2) := Prod.ext hadd rfl
    obtain ⟨cur', c1, c2⟩ := hO.exists_weak (cur ++ dl)
    obtain ⟨a', s1, s2⟩ := step_add hK (sec := sec) ha hG c1 c2
    refine ⟨a', cur', by rw [hd1]; exact s1, s2, c2.trans ?_⟩
    show (cur ++ dl).Perm (((g ++ ts).filter P).map f)
    rw [List.filter_append, List.map_append]
    exact hcur.append hsel
  | del ts =>
    have hd1 : d = (false, d.2) := Prod.ext hadd rfl
    obtain ⟨a', s1, s2⟩ := step_del hK (sec := sec) ha hG (fun hne => by
      have h1 : ts.filter P ≠ [] := by
        intro e
        rw [show (Update.del ts).triples = ts from rfl, e] at hsel
        exact hne (by simpa using hsel)
      have h2 := hdel rfl h1
      intro e
      rw [e] at hcur
      exact h2 (by simpa using hcur.symm)) (by have := hl hcur; omega) (by have := hl hsel; omega)
    exact ⟨a', _, by rw [hd1]; exact s1, s2, filter_del hinj hcur hsel⟩

/-- The loop over the updates. -/
theorem run_bag (hO : Strict lt) (hK : OpsOk K (List.Pairwise (Weak lt)) G R fuel) {sec : Bool} {P : Triple → Bool} {f : Triple → α}
    (hinj : ∀ t t', P t → P t' → f t = f t' → t = t') (us : List Update) (ds : List (Bool × O)) (hds : ds.length = us.length)
    (hd : ∀ i (h : i < us.length) (h' : i < ds.length), ds[i].1 = isAdd us[i] ∧ ∃ dl, G ds[i].2 dl ∧ dl.Perm ((us[i].triples.filter P).map f))
    (g : List Triple) (hlen : g.length + (us.map (·.triples.length)).sum < fuel) (a : Acc O) (cur : List α)
    (ha : Inv (List.Pairwise (Weak lt)) G R a cur) (hcur : cur.Perm ((g.filter P).map f)) :
    (DelOk P g us → ∃ a' cur', run K sec a ds = some a' ∧ Inv (List.Pairwise (Weak lt)) G R a' cur' ∧ cur'.Perm (((applyAll g us).filter P).map f)) ∧
    (¬ DelOk P g us → run K sec a ds = none) := by
  induction us generalizing ds g a cur with
  | nil =>
    cases ds with
    | nil => exact ⟨fun _ => ⟨a, cur, rfl, ha, hcur⟩, fun h => absurd trivial h⟩
    | cons d ds => simp at hds
  | cons u us ih =>
    cases ds with
    | nil => simp at hds
    | cons d ds =>
      obtain ⟨hadd, dl, hG, hsel⟩ := hd 0 (by simp) (by simp)
      simp only [List.getElem_cons_zero] at hadd hG hsel
      simp only [List.map_cons, List.sum_cons] at hlen
      have hal := apply_length_le g u
      by_cases h0 : isAdd u = false → u.triples.filter P ≠ [] → g.filter P ≠ []
      · obtain ⟨a', cur', s1, s2, s3⟩ := step_bag hO hK (sec := sec) hinj u d hadd hG hsel h0 (by omega) (by omega) ha hcur
        have := ih ds (by simpa using hds) (fun i h h' => hd (i + 1) (by simpa using h) (by simpa using h')) (u.apply g) (by omega) a' cur' s2 s3
        rw [run, s1]
        exact ⟨fun h => this.1 h.2, fun h => this.2 fun h' => h ⟨h0, h'⟩⟩
      · refine ⟨fun h => absurd h.1 h0, fun _ => ?_⟩
        have h0 : isAdd u = false ∧ u.triples.filter P ≠ [] ∧ g.filter P = [] := by
          apply Classical.byContradiction
          intro hc
          exact h0 fun x y z => hc ⟨x, y, z⟩
        obtain ⟨x, y, z⟩ := h0
        have e : cur = [] := by rw [z] at hcur; simpa using hcur
        subst e
        have hd1 : d = (false, d.2) := Prod.ext (hadd.trans x) rfl
        have : step K sec a d = none := by
          rw [hd1]
          refine step_undef hK ha hG ?_
          intro e; subst e
          exact y (by simpa using hsel.symm)
        rw [run, this]

theorem merged_bag (hO : Strict lt) (hK : OpsOk K (List.Pairwise (Weak lt)) G R fuel) {sec : Bool} {P : Triple → Bool} {f : Triple → α}
    (hinj : ∀ t t', P t → P t' → f t = f t' → t = t') (us : List Update) (ds : List (Bool × O)) (hds : ds.length = us.length)
    (hd : ∀ i (h : i < us.length) (h' : i < ds.length), ds[i].1 = isAdd us[i] ∧ ∃ dl, G ds[i].2 dl ∧ dl.Perm ((us[i].triples.filter P).map f))
    (g : List Triple) (hlen : g.length + (us.map (·.triples.length)).sum < fuel) {out : O} {ol : List α}
    (ho : G out ol) (hol : ol.Perm ((g.filter P).map f)) :
    (DelOk P g us → ∃ o l, merged K sec out ds = some o ∧ G o l ∧ l.Perm (((applyAll g us).filter P).map f)) ∧
    (¬ DelOk P g us → merged K sec out ds = none) := by
  obtain ⟨r1, r2⟩ := run_bag hO hK (sec := sec) hinj us ds hds hd g hlen ⟨[], out⟩ ol ⟨[], ol, rfl, by simp, ho, hK.sorted ho, by simp⟩ hol
  constructor
  · intro h
    obtain ⟨a, cur, h1, h2, h3⟩ := r1 h
    unfold merged
    rw [h1]
    simp only
    unfold finish
    by_cases he : a.its.isEmpty = true
    · rw [if_pos he]
      obtain ⟨xs, ol', e1, -, e3, e4, e5⟩ := h2
      have : xs = [] := by rw [e1] at he; simpa using he
      subst this
      have : cur = ol' := hK.uniq e4 (hK.sorted e3) (by simpa using e5)
      rw [this] at h3
      exact ⟨_, _, rfl, e3, h3⟩
    · rw [if_neg he]
      obtain ⟨m, m1, m2⟩ := mergeAll_ok hK h2 (.inr (by simpa using he))
      exact ⟨m, cur, m1, m2, h3⟩
  · intro h
    unfold merged
    rw [r2 h]

end Upd

/-! ## Iterators that may repeat -/

/-- The iterator on a table returns `l`. -/
def GoodPW (o : Obj) (l : List Pair) : Prop := o.I.Idem ∧ o.Returns l ∧ l.Pairwise (Upd.Weak Pair.lt)

/-- The scan returns `l`. -/
def GoodSW (o : Obj3) (l : List Row3) : Prop := o.I.Idem ∧ o.Returns l ∧ l.Pairwise (Upd.Weak Row3.lt)

theorem weak_sorted {l : List Pair} (h : l.Pairwise (Upd.Weak Pair.lt)) : Sorted l := by
  refine List.Pairwise.imp (fun {a b} h => ?_) h
  simp only [Upd.Weak, Pair.lt, Pair.le] at *; omega

theorem GoodP.weak {o l} (h : GoodP o l) : GoodPW o l :=
  ⟨h.1, h.2.1, h.2.2.imp fun {a b} h => by simp only [Upd.Weak, Pair.lt] at *; omega⟩

theorem GoodS.weak {o l} (h : GoodS o l) : GoodSW o l := ⟨h.1, h.2.1, h.2.2.imp Row3.lt_nl⟩

theorem opsP_weak {E : UEnv} (hE : E.Ok) (k : Int) : Upd.OpsOk (opsP E k) (List.Pairwise (Upd.Weak Pair.lt)) GoodPW Obj.Ready E.fuel where
  uniq a b c := pair_strict.perm_eq a b c
  sub a b := a.sublist b
  sorted h := h.2.2
  hasNext h := yields_hasNext h.2.1
  probe {o l} h := by
    refine ⟨⟨h.1, yields_probed h.1 h.2.1, h.2.2⟩, fun hl => ?_⟩
    show o.I.hasNext (o.I.hasNext o.s).2 = (true, (o.I.hasNext o.s).2)
    rw [h.1 o.s]
    have : (o.I.hasNext o.s).1 = true := by rw [yields_hasNext h.2.1]; simpa using hl
    exact Prod.ext this rfl
  ready {o} h := by
    have h : o.I.hasNext o.s = (true, o.s) := h
    refine ⟨?_, ?_⟩
    · show Obj.probed o = o
      unfold Obj.probed; rw [h]
    · show (o.I.hasNext o.s).1 = true
      rw [h]
  comp xs out h h1 h2 := by
    refine ⟨composite_idem _ _, ?_, h1⟩
    exact composite_yields hE.sortC xs (fun x hx => ⟨(h x hx).1, (h x hx).2.2.1, weak_sorted (h x hx).2.2.2⟩) (weak_sorted h1) h2
  rm ha hb lm lr := by
    refine ⟨rm_idem _ _ _ _, rm_yields ha.2.1 hb.2.1 (weak_sorted ha.2.2) (weak_sorted hb.2.2) lm lr, ?_⟩
    exact List.Pairwise.sublist List.filter_sublist ha.2.2

theorem Row3.nl_le {a b : Row3} (h : Upd.Weak Row3.lt a b) : Triple.le a b := by
  simp only [Upd.Weak, Row3.lt, Pair.lt] at h; unfold Triple.le; omega

theorem opsS_weak {E : UEnv} (hE : E.Ok) : Upd.OpsOk (opsS E) (List.Pairwise (Upd.Weak Row3.lt)) GoodSW Obj3.Ready E.fuel where
  uniq a b c := row3_strict.perm_eq a b c
  sub a b := a.sublist b
  sorted h := h.2.2
  hasNext h := yields_hasNext h.2.1
  probe {o l} h := by
    refine ⟨⟨h.1, yields_probed h.1 h.2.1, h.2.2⟩, fun hl => ?_⟩
    show o.I.hasNext (o.I.hasNext o.s).2 = (true, (o.I.hasNext o.s).2)
    rw [h.1 o.s]
    have : (o.I.hasNext o.s).1 = true := by rw [yields_hasNext h.2.1]; simpa using hl
    exact Prod.ext this rfl
  ready {o} h := by
    have h : o.I.hasNext o.s = (true, o.s) := h
    refine ⟨?_, ?_⟩
    · show Obj3.probed o = o
      unfold Obj3.probed; rw [h]
    · show (o.I.hasNext o.s).1 = true
      rw [h]
  comp xs out h h1 h2 := by
    refine ⟨cscan_idem _ _, ?_, h1⟩
    exact composite3_yields hE.sortS xs (fun x hx => ⟨(h x hx).2.2.1, (h x hx).2.2.2⟩) h1 h2
  rm {a b ms rs} ha hb lm lr := by
    refine ⟨rm_idem _ _ _ _, ?_, List.Pairwise.sublist List.filter_sublist ha.2.2⟩
    exact C18_scan_difference a.I b.I a.s b.s (-1, -1, -1) ms rs ha.2.1 hb.2.1 (ha.2.2.imp Row3.nl_le) (hb.2.2.imp Row3.nl_le) E.fuel lm lr

/-! ## The query -/

theorem perm_sel {α : Type} {lt : α → α → Prop} (hO : Upd.Strict lt) {l : List α} {ts : List Triple} {P : Triple → Bool} {f : Triple → α}
    (hl : l.Pairwise lt) (hts : ts.Nodup) (hinj : ∀ t t', P t → P t' → f t = f t' → t = t') (h : ∀ x, x ∈ l ↔ ∃ t ∈ ts, P t = true ∧ f t = x) :
    l.Perm ((ts.filter P).map f) := by
  refine (List.perm_ext_iff_of_nodup (hO.nodup hl) ?_).2 fun x => ?_
  · rw [List.Nodup, List.pairwise_map, List.pairwise_filter]
    refine hts.imp fun {a b} hab h1 h2 e => hab (hinj a b h1 h2 e)
  · rw [h, List.mem_map]
    constructor
    · rintro ⟨t, a, b, c⟩; exact ⟨t, List.mem_filter.2 ⟨a, b⟩, c⟩
    · rintro ⟨t, a, c⟩; exact ⟨t, (List.mem_filter.1 a).1, (List.mem_filter.1 a).2, c⟩

/-- What any query returns, whatever the updates on disk are: it is undefined if a deletion with triples asked for is applied to a graph
without such triples, and else it returns the rows of the triples, in order; a triple that was added twice is returned twice. -/
theorem updates_query_bag {kb : KB} {g : List Triple} (h : Loaded kb g) (hgn : g.Nodup) {E : UEnv} (hE : E.Ok) (us : List Update) (ds : List Diff3.Diff)
    (hlen : ds.length = us.length) (d : Order)
    (hds : ∀ i (h : i < us.length) (h' : i < ds.length), ds[i].add = Upd.isAdd us[i] ∧ us[i].triples.Nodup ∧ Diff3.DiffOkAt ds[i] d us[i].triples)
    (hf : g.length + (us.map (·.triples.length)).sum < E.fuel) (q : Pattern) (hq : q.Wf) (hd : kb.Reads d)
    (h1 : (q.at d.positions.2.1).isSome → (q.at d.positions.1).isSome)
    (h2 : (q.at d.positions.2.2).isSome → (q.at d.positions.2.1).isSome)
    (hg : g ≠ [] ∨ (q.at d.positions.1).isSome) :
    (Upd.DelOk (fun t => decide (q.Matches t)) g us →
      ∃ out, (kb.getIteratorU E ds d.idx (argOfPos q.s) (argOfPos q.p) (argOfPos q.o)).Returns out ∧
        out.Pairwise Row3.nl ∧ out.Perm (((applyAll g us).filter fun t => decide (q.Matches t)).map d.row)) ∧
    (¬ Upd.DelOk (fun t => decide (q.Matches t)) g us →
      kb.getIteratorU E ds d.idx (argOfPos q.s) (argOfPos q.p) (argOfPos q.o) = .undef) := by
  have hd' : kb.present d.idx = true ∨ (d.idx ≥ 3 ∧ kb.present (d.idx - 3) = true) := hd
  unfold KB.getIteratorU
  rw [if_pos hd']
  simp only [permute_args]
  cases hk : q.at d.positions.1 with
  | some k =>
    have hk0 : 0 ≤ k := hq _ k hk
    have harg : argOfPos (some k) = k := rfl
    rw [harg, if_pos hk0]
    have hcc : q.at d.positions.2.1 = none → q.at d.positions.2.2 = none := by
      intro e; rw [e] at h2
      cases hx : q.at d.positions.2.2 with
      | none => rfl
      | some v => rw [hx] at h2; simp at h2
    have n1 : ∀ x ∈ q.at d.positions.2.1, 0 ≤ x := hq _
    have n2 : ∀ x ∈ q.at d.positions.2.2, 0 ≤ x := hq _
    have hm : ∀ t, q.Matches t ↔ d.key t = k ∧ (∀ v ∈ q.at d.positions.2.1, (d.pair t).1 = v) ∧ ∀ v ∈ q.at d.positions.2.2, (d.pair t).2 = v := by
      intro t
      rw [matches_iff d q t, hk]
      exact and_congr_left fun _ => ⟨fun h => h k rfl, fun h v hv => by rw [h]; simpa using hv⟩
    have hinj : ∀ t t', decide (q.Matches t) = true → decide (q.Matches t') = true → d.pair t = d.pair t' → t = t' := by
      intro t t' a b e
      rw [decide_eq_true_eq, hm] at a b
      exact d.eq_of_row (a.1.trans b.1.symm) e
    have hsel : ∀ (l : List Triple) (out : List Pair), l.Nodup → SortedS out →
        (∀ p, p ∈ out ↔ (∃ t ∈ l, d.key t = k ∧ d.pair t = p) ∧ (∀ v ∈ q.at d.positions.2.1, p.1 = v) ∧ ∀ v ∈ q.at d.positions.2.2, p.2 = v) →
        out.Perm ((l.filter fun t => decide (q.Matches t)).map d.pair) := by
      intro l out hl hs ho
      refine perm_sel pair_strict hs hl hinj fun p => ?_
      rw [ho p]
      constructor
      · rintro ⟨⟨t, a, b, rfl⟩, c, e⟩; exact ⟨t, a, by rw [decide_eq_true_eq, hm]; exact ⟨b, c, e⟩, rfl⟩
      · rintro ⟨t, a, b, rfl⟩
        rw [decide_eq_true_eq, hm] at b
        exact ⟨⟨t, a, b.1, rfl⟩, b.2⟩
    obtain ⟨ol, o1, o2⟩ := h.main_good (E := E.toEnv) hE.sortP (by omega) d hd k _ _ n1 n2 hcc
    obtain ⟨r1, r2⟩ := Upd.merged_bag pair_strict (opsP_weak hE k) (sec := decide (argOfPos (q.at d.positions.2.1) ≥ 0)) hinj us
      (ds.map fun D => (D.add, D.get d.idx k (argOfPos (q.at d.positions.2.1)) (argOfPos (q.at d.positions.2.2)))) (by simpa using hlen)
      (by
        intro i hi hi'
        simp only [List.getElem_map]
        obtain ⟨a, nd, b⟩ := hds i hi (by simpa using hi')
        obtain ⟨out, c, e⟩ := DiffOk_get d b k _ _ n1 n2 hcc
        exact ⟨a, out, c.weak, hsel _ _ nd c.2.2 e⟩) g hf o1.weak (hsel _ _ hgn o1.2.2 o2)
    constructor
    · intro hdel
      obtain ⟨o, l, m1, m2, m3⟩ := r1 hdel
      simp only [m1]
      refine ⟨l.map fun p => (k, p), ⟨_, rfl, withKey_yields m2.2.1⟩, ?_, ?_⟩
      · refine List.pairwise_map.2 (List.Pairwise.imp (fun {a b} h => ?_) m2.2.2)
        rintro (h' | h')
        · exact absurd h' (Int.lt_irrefl _)
        · exact h h'.2
      · refine (m3.map _).trans (List.Perm.of_eq ?_)
        rw [List.map_map]
        refine List.map_congr_left fun t ht => ?_
        have := (List.mem_filter.1 ht).2
        rw [decide_eq_true_eq, hm] at this
        show (k, d.pair t) = d.row t
        rw [Order.row, this.1]
    · intro hdel
      simp only [r2 hdel]
  | none =>
    rw [hk] at h1 hg
    have e2 : q.at d.positions.2.1 = none := by
      cases hx : q.at d.positions.2.1 with
      | none => rfl
      | some v => rw [hx] at h1; simp at h1
    have e3 : q.at d.positions.2.2 = none := by
      cases hx : q.at d.positions.2.2 with
      | none => rfl
      | some v => rw [hx, e2] at h2; simp at h2
    have hm : ∀ t, q.Matches t := fun t => (matches_iff d q t).2 (by rw [hk, e2, e3]; simp)
    have harg : ¬ argOfPos none ≥ 0 := by simp [argOfPos]
    rw [if_neg harg]
    obtain ⟨s, ol, a, b, c, e⟩ := h.scan (E := E.toEnv) hE.sortP (by omega) d hd (by
      rcases hg with hg | hg
      · exact hg
      · simp at hg)
    simp only [a]
    have hinj : ∀ t t', decide (q.Matches t) = true → decide (q.Matches t') = true → d.row t = d.row t' → t = t' := fun t t' _ _ e =>
      d.eq_of_row (congrArg (fun r : Row3 => r.1) e) (congrArg (fun r : Row3 => r.2) e)
    have hsel : ∀ (l : List Triple) (out : List Row3), l.Nodup → out.Pairwise Row3.lt → (∀ r, r ∈ out ↔ ∃ t ∈ l, d.row t = r) →
        out.Perm ((l.filter fun t => decide (q.Matches t)).map d.row) := by
      intro l out hl hs ho
      refine perm_sel row3_strict hs hl hinj fun r => ?_
      rw [ho r]
      constructor
      · rintro ⟨t, a, b⟩; exact ⟨t, a, by simpa using hm t, b⟩
      · rintro ⟨t, a, -, b⟩; exact ⟨t, a, b⟩
    obtain ⟨r1, r2⟩ := Upd.merged_bag row3_strict (opsS_weak hE) (sec := false) hinj us (ds.map fun D => (D.add, D.scan d.idx)) (by simpa using hlen)
      (by
        intro i hi hi'
        simp only [List.getElem_map]
        obtain ⟨a, nd, b⟩ := hds i hi (by simpa using hi')
        obtain ⟨out, c, e⟩ := DiffOk_scan d b
        exact ⟨a, out, c.weak, hsel _ _ nd c.2.2 e⟩) g hf
      (out := { σ := Scan.St, I := Scan.itr kb E.toEnv, mv := Scan.moveto kb, s := s }) (GoodS.weak ⟨scan_idem _ _, b, c⟩) (hsel _ _ hgn c e)
    constructor
    · intro hdel
      obtain ⟨o, l, m1, m2, m3⟩ := r1 hdel
      simp only [m1]
      exact ⟨l, ⟨_, rfl, m2.2.1⟩, m2.2.2, m3⟩
    · intro hdel
      simp only [r2 hdel]

end Trident
