import Verif.Update.Merge
import Verif.Props.Term
/-! Helper proofs for the merge with updates (no property statements here). -/
namespace Trident.Upd

/-- A strict total order. -/
structure Strict {α : Type} (lt : α → α → Prop) : Prop where
  irrefl : ∀ a, ¬ lt a a
  trans : ∀ {a b c}, lt a b → lt b c → lt a c
  tri : ∀ {a b}, ¬ lt a b → ¬ lt b a → a = b

variable {α : Type} {lt : α → α → Prop}

theorem Strict.nodup (h : Strict lt) {l : List α} (hl : l.Pairwise lt) : l.Nodup := by
  refine List.Pairwise.imp (R := lt) (fun {a b} hab => ?_) hl
  intro e
  rw [e] at hab
  exact h.irrefl _ hab

theorem Strict.ext (h : Strict lt) {l l' : List α} (hl : l.Pairwise lt) (hl' : l'.Pairwise lt) (hm : ∀ x, x ∈ l ↔ x ∈ l') : l = l' := by
  induction l generalizing l' with
  | nil =>
    cases l' with
    | nil => rfl
    | cons y l' => exact absurd ((hm y).2 (by simp)) (by simp)
  | cons x l ih =>
    cases l' with
    | nil => exact absurd ((hm x).1 (by simp)) (by simp)
    | cons y l' =>
      rw [List.pairwise_cons] at hl hl'
      have hxy : x = y := by
        apply Classical.byContradiction
        intro hne
        have h1 : x ∈ l' := by
          rcases List.mem_cons.1 ((hm x).1 (by simp)) with e | e
          · exact absurd e hne
          · exact e
        have h2 : y ∈ l := by
          rcases List.mem_cons.1 ((hm y).2 (by simp)) with e | e
          · exact absurd e.symm hne
          · exact e
        exact h.irrefl _ (h.trans (hl.1 y h2) (hl'.1 x h1))
      subst hxy
      rw [ih hl.2 hl'.2]
      intro z
      have hn1 : x ∉ l := fun hx => h.irrefl _ (hl.1 x hx)
      have hn2 : x ∉ l' := fun hx => h.irrefl _ (hl'.1 x hx)
      constructor
      · intro hz
        rcases List.mem_cons.1 ((hm z).1 (by simp [hz])) with rfl | e
        · exact absurd hz hn1
        · exact e
      · intro hz
        rcases List.mem_cons.1 ((hm z).2 (by simp [hz])) with rfl | e
        · exact absurd hz hn2
        · exact e

theorem Strict.exists_sorted (h : Strict lt) {l : List α} (hn : l.Nodup) : ∃ out : List α, out.Pairwise lt ∧ out.Perm l := by
  induction l with
  | nil => exact ⟨[], .nil, .nil⟩
  | cons x l ih =>
    rw [List.nodup_cons] at hn
    obtain ⟨out, h1, h2⟩ := ih hn.2
    have hx : x ∉ out := fun hx => hn.1 (h2.mem_iff.1 hx)
    have : ∃ out' : List α, out'.Pairwise lt ∧ out'.Perm (x :: out) := by
      clear h2 ih hn
      induction out with
      | nil => exact ⟨[x], by simp, .refl _⟩
      | cons y out ih =>
        rw [List.pairwise_cons] at h1
        have hxy : x ≠ y := fun e => hx (by simp [e])
        by_cases hlt : lt x y
        · refine ⟨x :: y :: out, ?_, .refl _⟩
          refine List.pairwise_cons.2 ⟨fun z hz => ?_, List.pairwise_cons.2 h1⟩
          rcases List.mem_cons.1 hz with rfl | hz
          · exact hlt
          · exact h.trans hlt (h1.1 z hz)
        · have hyx : lt y x := Classical.byContradiction fun hc => hxy (h.tri hlt hc)
          obtain ⟨o, o1, o2⟩ := ih h1.2 (fun hc => hx (by simp [hc]))
          refine ⟨y :: o, List.pairwise_cons.2 ⟨fun z hz => ?_, o1⟩, (o2.cons y).trans (List.Perm.swap _ _ _)⟩
          rcases List.mem_cons.1 (o2.mem_iff.1 hz) with rfl | hz
          · exact hyx
          · exact h1.1 z hz
    obtain ⟨out', h3, h4⟩ := this
    exact ⟨out', h3, h4.trans (h2.cons x)⟩

variable [BEq α] [LawfulBEq α] {O : Type 1} {K : Ops O}

/-- What is needed of the iterators: `G o l` says that `o` returns `l`, `R o` that `hasNext` has been called on it and was
true; `Srt` says what order the lists are in. -/
structure OpsOk (K : Ops O) (Srt : List α → Prop) (G : O → List α → Prop) (R : O → Prop) (fuel : Nat) : Prop where
  uniq : ∀ {l l'}, Srt l → Srt l' → l.Perm l' → l = l'
  sub : ∀ {l l' : List α}, Srt l → l'.Sublist l → Srt l'
  sorted : ∀ {o l}, G o l → Srt l
  hasNext : ∀ {o l}, G o l → K.hasNext o = !l.isEmpty
  probe : ∀ {o l}, G o l → G (K.probed o) l ∧ (l ≠ [] → R (K.probed o))
  ready : ∀ {o}, R o → K.probed o = o ∧ K.hasNext o = true
  comp : ∀ (xs : List (O × List α)) {out}, (∀ x ∈ xs, R x.1 ∧ G x.1 x.2) → Srt out → out.Perm (xs.flatMap (·.2)) →
    G (K.comp (xs.map (·.1))) out
  rm : ∀ {a b ms rs}, G a ms → G b rs → ms.length < fuel → rs.length < fuel → G (K.rm a b) (ms.filter fun x => decide (x ∉ rs))

variable {Srt : List α → Prop} {G : O → List α → Prop} {R : O → Prop} {fuel : Nat}

/-- The iterators together hold `cur`. -/
def Inv (Srt : List α → Prop) (G : O → List α → Prop) (R : O → Prop) (a : Acc O) (cur : List α) : Prop :=
  ∃ (xs : List (O × List α)) (ol : List α), a.its = xs.map (·.1) ∧ (∀ x ∈ xs, R x.1 ∧ G x.1 x.2) ∧ G a.out ol ∧
    Srt cur ∧ cur.Perm (xs.flatMap (·.2) ++ ol)

theorem probeSome_eq (hK : OpsOk K Srt G R fuel) {xs : List (O × List α)} (h : ∀ x ∈ xs, R x.1 ∧ G x.1 x.2) :
    probeSome K (xs.map (·.1)) = xs.map (·.1) := by
  match xs with
  | [] => rfl
  | [x] => rfl
  | x :: y :: l =>
    have := hK.ready (h x (by simp)).1
    simp only [List.map_cons, probeSome, this.1, this.2, if_pos]

/-- What `withOut` and `mergeAll` give. -/
theorem mergeAll_ok (hK : OpsOk K Srt G R fuel) {a : Acc O} {cur : List α} (h : Inv Srt G R a cur) (hne : cur ≠ [] ∨ a.its ≠ []) :
    ∃ m, mergeAll K (withOut K a.its a.out) = some m ∧ G m cur := by
  obtain ⟨xs, ol, h1, h2, h3, h4, h5⟩ := h
  obtain ⟨ys, y1, y2, y3⟩ : ∃ ys : List (O × List α), withOut K a.its a.out = ys.map (·.1) ∧ (∀ y ∈ ys, R y.1 ∧ G y.1 y.2) ∧
      cur.Perm (ys.flatMap (·.2)) := by
    unfold withOut
    rw [hK.hasNext h3]
    by_cases ho : ol = []
    · subst ho
      exact ⟨xs, by simpa using h1, h2, by simpa using h5⟩
    · have hp := hK.probe h3
      refine ⟨xs ++ [(K.probed a.out, ol)], ?_, ?_, ?_⟩
      · have : (!ol.isEmpty) = true := by simpa using ho
        rw [if_pos this, h1]; simp
      · intro y hy
        rcases List.mem_append.1 hy with hy | hy
        · exact h2 y hy
        · rw [List.mem_singleton.1 hy]; exact ⟨hp.2 ho, hp.1⟩
      · simpa using h5
  rw [y1]
  match ys, y1, y2, y3 with
  | [], y1, _, y3 =>
    exfalso
    rcases hne with hne | hne
    · exact hne (by simpa using y3)
    · unfold withOut at y1
      split at y1
      · simp at y1
      · exact hne (by simpa using y1)
  | [y], _, y2, y3 =>
    refine ⟨y.1, rfl, ?_⟩
    obtain ⟨-, hg⟩ := y2 y (by simp)
    have : cur = y.2 := hK.uniq h4 (hK.sorted hg) (by simpa using y3)
    rw [this]; exact hg
  | y :: z :: l, _, y2, y3 => exact ⟨_, rfl, hK.comp (y :: z :: l) y2 h4 y3⟩

theorem step_add (hK : OpsOk K Srt G R fuel) {sec : Bool} {a : Acc O} {cur dl cur' : List α} {d : O} (h : Inv Srt G R a cur) (hd : G d dl)
    (hc : Srt cur') (hp : cur'.Perm (cur ++ dl)) : ∃ a', step K sec a (true, d) = some a' ∧ Inv Srt G R a' cur' := by
  refine ⟨_, rfl, ?_⟩
  obtain ⟨xs, ol, h1, h2, h3, h4, h5⟩ := h
  -- the probes change nothing
  obtain ⟨a', ha', h1', h3'⟩ : ∃ a' : Acc O, (if sec then (if K.hasNext a.out then (⟨a.its, K.probed a.out⟩ : Acc O) else ⟨probeSome K a.its, K.probed a.out⟩) else a) = a' ∧
      a'.its = xs.map (·.1) ∧ G a'.out ol := by
    refine ⟨_, rfl, ?_⟩
    cases sec with
    | false => exact ⟨h1, h3⟩
    | true =>
      rw [if_pos rfl]
      have hp := (hK.probe h3).1
      by_cases ho : K.hasNext a.out = true
      · rw [if_pos ho]; exact ⟨h1, hp⟩
      · rw [if_neg ho]; exact ⟨by show probeSome K a.its = _; rw [h1]; exact probeSome_eq hK h2, hp⟩
  simp only [ha']
  have hperm : cur'.Perm ((xs.flatMap (·.2) ++ dl) ++ ol) := by
    refine hp.trans ((h5.append_right dl).trans ?_)
    rw [List.append_assoc, List.append_assoc]
    exact List.Perm.append_left _ List.perm_append_comm
  rw [hK.hasNext hd]
  by_cases hdl : dl = []
  · subst hdl
    exact ⟨xs, ol, h1', h2, h3', hc, by simpa using hperm⟩
  · have hnp := hK.probe hd
    have : (!dl.isEmpty) = true := by simpa using hdl
    rw [if_pos this]
    refine ⟨xs ++ [(K.probed d, dl)], ol, by simp [h1'], ?_, h3', hc, by simpa using hperm⟩
    intro x hx
    rcases List.mem_append.1 hx with hx | hx
    · exact h2 x hx
    · rw [List.mem_singleton.1 hx]; exact ⟨hnp.2 hdl, hnp.1⟩

theorem step_del (hK : OpsOk K Srt G R fuel) {sec : Bool} {a : Acc O} {cur dl : List α} {d : O} (h : Inv Srt G R a cur) (hd : G d dl)
    (hsub : dl ≠ [] → cur ≠ []) (hlen : cur.length < fuel) (hlen' : dl.length < fuel) :
    ∃ a', step K sec a (false, d) = some a' ∧ Inv Srt G R a' (cur.filter fun x => decide (x ∉ dl)) := by
  have hcur : Srt cur := by obtain ⟨_, _, _, _, _, h4, _⟩ := h; exact h4
  unfold step
  rw [if_neg (by simp), hK.hasNext hd]
  by_cases hdl : dl = []
  · subst hdl
    refine ⟨a, rfl, ?_⟩
    rw [List.filter_eq_self.2 (by simp)]
    exact h
  · have hb : (!dl.isEmpty) = true := by simpa using hdl
    rw [if_pos hb]
    obtain ⟨m, hm, hg⟩ := mergeAll_ok hK h (.inl (hsub hdl))
    simp only [hm]
    refine ⟨_, rfl, [], _, rfl, by simp, hK.rm hg (hK.probe hd).1 hlen hlen', ?_, by simp⟩
    exact hK.sub hcur List.filter_sublist


/-- A deletion that finds nothing to delete from. -/
theorem step_undef (hK : OpsOk K Srt G R fuel) {sec : Bool} {a : Acc O} {dl : List α} {d : O} (h : Inv Srt G R a []) (hd : G d dl) (hdl : dl ≠ []) :
    step K sec a (false, d) = none := by
  unfold step
  rw [if_neg (by simp), hK.hasNext hd, if_pos (by simpa using hdl)]
  obtain ⟨xs, ol, h1, h2, h3, -, h5⟩ := h
  have h6 : xs.flatMap (·.2) ++ ol = [] := by simpa using h5
  obtain ⟨h6, rfl⟩ := List.append_eq_nil_iff.1 h6
  have hx : xs = [] := by
    cases xs with
    | nil => rfl
    | cons x xs =>
      obtain ⟨r, g⟩ := h2 x (by simp)
      have e := (hK.ready r).2
      rw [hK.hasNext g] at e
      simp only [List.flatMap_cons, List.append_eq_nil_iff] at h6
      simp [h6.1] at e
  subst hx
  simp only [withOut, hK.hasNext h3]
  rw [h1]
  rfl

/-! ## Histories -/

/-- `l` are the images of the triples of `g` that are asked for. -/
def Sel (P : Triple → Prop) (f : Triple → α) (g : List Triple) (l : List α) : Prop := ∀ x, x ∈ l ↔ ∃ t ∈ g, P t ∧ f t = x

/-- The update is an addition. -/
def isAdd : Update → Bool
  | .add _ => true
  | .del _ => false

theorem run_ok (hO : Strict lt) (hK : OpsOk K (List.Pairwise lt) G R fuel) {sec : Bool} {P : Triple → Prop} {f : Triple → α} (hinj : ∀ t t', P t → P t' → f t = f t' → t = t')
    (us : List Update) (ds : List (Bool × O)) (hds : ds.length = us.length)
    (hd : ∀ i (h : i < us.length) (h' : i < ds.length), ds[i].1 = isAdd us[i] ∧ ∃ dl, G ds[i].2 dl ∧ Sel P f us[i].triples dl)
    (g : List Triple) (hfresh : FreshAll g us) (hlen : g.length + (us.map (·.triples.length)).sum < fuel) (a : Acc O) (cur : List α)
    (ha : Inv (List.Pairwise lt) G R a cur) (hcur : Sel P f g cur) :
    ∃ a' cur', run K sec a ds = some a' ∧ Inv (List.Pairwise lt) G R a' cur' ∧ Sel P f (applyAll g us) cur' := by
  induction us generalizing ds g a cur with
  | nil =>
    cases ds with
    | nil => exact ⟨a, cur, rfl, ha, hcur⟩
    | cons d ds => simp at hds
  | cons u us ih =>
    cases ds with
    | nil => simp at hds
    | cons d ds =>
      obtain ⟨hadd, dl, hG, hsel⟩ := hd 0 (by simp) (by simp)
      simp only [List.getElem_cons_zero] at hadd hG hsel
      have hcurS : cur.Pairwise lt := by obtain ⟨_, _, _, _, _, h4, _⟩ := ha; exact h4
      have hcl : cur.length ≤ g.length := by
        have : cur.length ≤ (g.map f).length := by
          haveI : DecidableEq α := fun a b => Classical.propDecidable (a = b)
          apply length_le_of_nodup_subset (hO.nodup hcurS)
          intro x hx
          obtain ⟨t, ht, -, rfl⟩ := (hcur x).1 hx
          exact List.mem_map.2 ⟨t, ht, rfl⟩
        simpa using this
      simp only [List.map_cons, List.sum_cons] at hlen
      have key : ∃ a' cur', step K sec a d = some a' ∧ Inv (List.Pairwise lt) G R a' cur' ∧ Sel P f (u.apply g) cur' := by
        cases u with
        | add ts =>
          have hd1 : d = (true, d.2) := Prod.ext hadd rfl
          have hdis : ∀ x ∈ cur, x ∉ dl := by
            intro x hx hx'
            obtain ⟨t, ht, hp, rfl⟩ := (hcur x).1 hx
            obtain ⟨t', ht', hp', e⟩ := (hsel _).1 hx'
            have := hinj _ _ hp' hp e
            subst this
            exact hfresh.1.2 _ ht' ht
          have hnd : (cur ++ dl).Nodup := List.nodup_append.2 ⟨hO.nodup hcurS, hO.nodup (hK.sorted hG), fun x hx y hy e => hdis x hx (by rw [e]; exact hy)⟩
          obtain ⟨cur', c1, c2⟩ := hO.exists_sorted hnd
          obtain ⟨a', s1, s2⟩ := step_add hK (sec := sec) ha hG c1 c2
          refine ⟨a', cur', by rw [hd1]; exact s1, s2, fun x => ?_⟩
          rw [c2.mem_iff, List.mem_append, hcur x, hsel x]
          show _ ↔ ∃ t ∈ g ++ ts, _
          constructor
          · rintro (⟨t, h1, h2⟩ | ⟨t, h1, h2⟩)
            · exact ⟨t, List.mem_append.2 (.inl h1), h2⟩
            · exact ⟨t, List.mem_append.2 (.inr h1), h2⟩
          · rintro ⟨t, h1, h2⟩
            rcases List.mem_append.1 h1 with h1 | h1
            · exact .inl ⟨t, h1, h2⟩
            · exact .inr ⟨t, h1, h2⟩
        | del ts =>
          have hd1 : d = (false, d.2) := Prod.ext hadd rfl
          have hsub : ∀ x ∈ dl, x ∈ cur := by
            intro x hx
            obtain ⟨t, ht, hp, rfl⟩ := (hsel x).1 hx
            exact (hcur _).2 ⟨t, hfresh.1.2 t ht, hp, rfl⟩
          obtain ⟨a', s1, s2⟩ := step_del hK (sec := sec) ha hG (fun hne => by
            obtain ⟨x, hx⟩ := List.exists_mem_of_ne_nil _ hne
            exact List.ne_nil_of_mem (hsub x hx)) (by omega) (by
            haveI : DecidableEq α := fun a b => Classical.propDecidable (a = b)
            have := length_le_of_nodup_subset (hO.nodup (hK.sorted hG)) hsub
            omega)
          refine ⟨a', _, by rw [hd1]; exact s1, s2, fun x => ?_⟩
          rw [List.mem_filter, hcur x]
          show _ ↔ ∃ t ∈ g.filter fun t => decide (t ∉ ts), _
          constructor
          · rintro ⟨⟨t, h1, h2, rfl⟩, h3⟩
            refine ⟨t, List.mem_filter.2 ⟨h1, ?_⟩, h2, rfl⟩
            simp only [decide_eq_true_eq] at h3 ⊢
            exact fun hc => h3 ((hsel _).2 ⟨t, hc, h2, rfl⟩)
          · rintro ⟨t, h1, h2, rfl⟩
            obtain ⟨h1, h3⟩ := List.mem_filter.1 h1
            refine ⟨⟨t, h1, h2, rfl⟩, ?_⟩
            simp only [decide_eq_true_eq] at h3 ⊢
            intro hc
            obtain ⟨t', ht', hp', e⟩ := (hsel _).1 hc
            have := hinj _ _ hp' h2 e
            subst this
            exact h3 ht'
      obtain ⟨a', cur', s1, s2, s3⟩ := key
      have hal : (u.apply g).length ≤ g.length + u.triples.length := by
        cases u with
        | add ts => simp [Update.apply, Update.triples]
        | del ts =>
          have := List.length_filter_le (fun t => decide (t ∉ ts)) g
          simp only [Update.apply]; omega
      obtain ⟨a'', cur'', r1, r2, r3⟩ := ih ds (by simpa using hds) (fun i h h' => hd (i + 1) (by simpa using h) (by simpa using h')) (u.apply g) hfresh.2
        (by omega) a' cur' s2 s3
      refine ⟨a'', cur'', ?_, r2, r3⟩
      rw [run, s1]; exact r1

/-- The merge of the stored graph with a history of updates. -/
theorem merged_ok (hO : Strict lt) (hK : OpsOk K (List.Pairwise lt) G R fuel) {sec : Bool} {P : Triple → Prop} {f : Triple → α} (hinj : ∀ t t', P t → P t' → f t = f t' → t = t')
    (us : List Update) (ds : List (Bool × O)) (hds : ds.length = us.length)
    (hd : ∀ i (h : i < us.length) (h' : i < ds.length), ds[i].1 = isAdd us[i] ∧ ∃ dl, G ds[i].2 dl ∧ Sel P f us[i].triples dl)
    (g : List Triple) (hfresh : FreshAll g us) (hlen : g.length + (us.map (·.triples.length)).sum < fuel) {out : O} {ol : List α}
    (ho : G out ol) (hol : Sel P f g ol) :
    ∃ o l, merged K sec out ds = some o ∧ G o l ∧ Sel P f (applyAll g us) l := by
  obtain ⟨a, cur, h1, h2, h3⟩ := run_ok hO hK (sec := sec) hinj us ds hds hd g hfresh hlen ⟨[], out⟩ ol
    ⟨[], ol, rfl, by simp, ho, hK.sorted ho, by simp⟩ hol
  unfold merged
  rw [h1]
  simp only
  unfold finish
  by_cases he : a.its.isEmpty = true
  · rw [if_pos he]
    obtain ⟨xs, ol', e1, -, e3, e4, e5⟩ := h2
    have : xs = [] := by rw [e1] at he; simpa using he
    subst this
    have : cur = ol' := hO.ext e4 (hK.sorted e3) fun x => by simpa using e5.mem_iff (a := x)
    rw [this] at h3
    exact ⟨_, _, rfl, e3, h3⟩
  · rw [if_neg he]
    obtain ⟨m, m1, m2⟩ := mergeAll_ok hK h2 (.inr (by simpa using he))
    exact ⟨m, cur, m1, m2, h3⟩

end Trident.Upd
