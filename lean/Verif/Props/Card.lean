import Verif.Update.CardProofs
import Verif.Props.MergeUpdates
/-!
# C25: the reported numbers under updates
-/
namespace Trident
open Load Upd

/-! ## Helpers -/

/-- What is known of the directory after a history. -/
structure Numbers (g : List Triple) (ops : List (Bool × List T3)) (D : Disk) (g' : List Triple) (us : List Update) : Prop where
  nodup : g'.Nodup
  mem : ∀ t, t ∈ g' ↔ t ∈ g
  fresh : FreshAll g' us
  numbered : AllNumbered D us
  asked : ∀ u ∈ us, ∃ r ∈ ops, isAdd u = r.1 ∧ ∀ t ∈ u.triples, t ∈ r.2.map T3.triple
  sem : ∀ t, t ∈ applyAll g' us ↔ content g ops t

theorem AfterHistory.numbers {kb g E S rnd M ops D} (H : AfterHistory kb g E S rnd M ops D) (L : InLimits g E ops) : ∃ g' us, Numbers g ops D g' us := by
  obtain ⟨g', a, b, c⟩ := exists_nodup g
  have hne : g' ≠ [] := by
    obtain ⟨t, ht⟩ := List.exists_mem_of_ne_nil _ H.notEmpty
    exact List.ne_nil_of_mem ((b t).2 ht)
  have hl := H.loaded.congr b
  have h1 := L.volume
  have h2 := L.fuel
  obtain ⟨D', us, r1, r2, r3, r4, r5⟩ := updates_spec_with hl H.envOk H.sortsOk rnd hne H.reads H.mapped (all := ops)
    (Q := fun D us => AllNumbered D us ∧ ∀ u ∈ us, ∃ r ∈ ops, isAdd u = r.1 ∧ ∀ t ∈ u.triples, t ∈ r.2.map T3.triple)
    (fun n D us u ts hu hQ hn hin hid => ⟨hQ.1.write H.sortsOk (rnd n) u.1 ts hn hid, fun v hv => by
      rcases List.mem_append.1 hv with hv | hv
      · exact hQ.2 v hv
      · obtain rfl := List.mem_singleton.1 hv
        refine ⟨u, hu, request_isAdd _ _, fun t ht => ?_⟩
        rw [request_triples] at ht
        obtain ⟨x, hx, rfl⟩ := List.mem_map.1 ht
        exact List.mem_map.2 ⟨x, hin x hx, rfl⟩⟩)
    ops (fun _ h => h) 0 (DiskOk.empty g') ⟨⟨rfl, fun i x u h => by simp [Disk.empty] at h⟩, fun u hu => by simp at hu⟩ L.fit (by simpa using h1) (by simp; omega)
  rw [H.done] at r1
  obtain rfl : D' = D := by simpa using r1.symm
  refine ⟨g', us, a, b, r2.fresh, r3.1, r3.2, fun t => (r5 t).trans ?_⟩
  exact holdsAfter_congr b _ _

theorem Numbers.perm {g ops D g' us} (N : Numbers g ops D g' us) {l : List Triple} (hl : l.Nodup) (hc : ∀ t, t ∈ l ↔ content g ops t) :
    (applyAll g' us).Perm l :=
  (List.perm_ext_iff_of_nodup (nodup_applyAll N.nodup N.fresh) hl).2 fun t => (N.sem t).trans (hc t).symm

theorem matches_one (d : Order) {q : Pattern} {k : Int} (h1 : q.at d.positions.1 = some k) (h2 : q.at d.positions.2.1 = none)
    (h3 : q.at d.positions.2.2 = none) (t : Triple) : q.Matches t ↔ d.key t = k := by
  rw [matches_iff d, h1, h2, h3]
  simp

theorem matches_free {q : Pattern} (h1 : q.s = none) (h2 : q.p = none) (h3 : q.o = none) (t : Triple) : q.Matches t := by
  intro x v hv
  cases x
  · rw [show q.at .s = q.s from rfl, h1] at hv; cases hv
  · rw [show q.at .p = q.p from rfl, h2] at hv; cases hv
  · rw [show q.at .o = q.o from rfl, h3] at hv; cases hv

theorem returns_hasNext {o : Obj3} {out} (h : o.Returns out) : (o.I.hasNext o.s).1 = true ↔ out ≠ [] := by
  cases h with
  | done h => simp [h]
  | step h _ => simp [h]

/-! ## C25 -/

/-- C25, the size of the graph: load any triples, update the graph by any history of requests. The reported size is the number of triples that
hold, `l` being a list of them. -/
theorem C25_size (c : Config) (g : List T3) (h : c.Ok g) (m : Mem) (Mm : Nat → Maps) (E : UEnv) (S : Diff3.Sorts) (rnd : Nat → Nat → Nat → Bool × Bool)
    (M : Nat → Disk → Mapping) (ops : List (Bool × List T3)) (D : Disk) (H : AfterHistory (c.open' g m Mm) (g.map T3.triple) E S rnd M ops D)
    (L : InLimits (g.map T3.triple) E ops) (l : List Triple) (hl : l.Nodup) (hc : ∀ t, t ∈ l ↔ content (g.map T3.triple) ops t) :
    getInputSize (c.counts g) D.ups = l.length := by
  obtain ⟨g', us, N⟩ := H.numbers L
  have := foldl_countP (P := fun _ => true) (f := Stored.size) Numbered (fun x u hx => ⟨hx.1, hx.size⟩) D.ups us N.numbered.1 N.numbered.2 g' N.nodup N.fresh
  rw [List.countP_true, (N.perm hl hc).length_eq] at this
  unfold getInputSize
  rw [h.inputSize N.nodup N.mem]
  exact this

/-- The exact number of triples with a key. -/
theorem Numbers.card {g : List T3} {ops D g' us} (N : Numbers (g.map T3.triple) ops D g' us) {c : Config} (h : c.Ok g) (d : Order) (hp : permsOf c.nindices d.idx = true)
    (hs : d.idx < 3 ∨ c.canSkip = false) (k : Int) {l : List Triple} (hl : l.Nodup) (hc : ∀ t, t ∈ l ↔ content (g.map T3.triple) ops t) :
    D.ups.foldl (fun n u => if u.add then n + (u.card d.idx k : Int) else n - (u.card d.idx k : Int)) ((((c.counts g).nel k d.idx).getD 0 : Nat) : Int) =
      (l.countP fun t => decide (d.key t = k) : Nat) := by
  have := foldl_countP (P := fun t => decide (d.key t = k)) (f := fun x => x.card d.idx k) Numbered (fun x u hx => ⟨hx.1, hx.card d d.idx rfl k⟩) D.ups us N.numbered.1
    N.numbered.2 g' N.nodup N.fresh
  rw [h.nel d hp hs N.nodup N.mem, ← (N.perm hl hc).countP_eq]
  exact this

theorem arg_some {k : Int} (h : 0 ≤ k) : ¬ argOfPos (some k) < 0 := by simp [argOfPos]; omega
theorem arg_none : argOfPos none < 0 := by decide

theorem unbound_eq (d : Order) (q : Pattern) : countUnbound (argOfPos q.s) (argOfPos q.p) (argOfPos q.o) =
    countUnbound (argOfPos (q.at d.positions.1)) (argOfPos (q.at d.positions.2.1)) (argOfPos (q.at d.positions.2.2)) := by
  unfold countUnbound
  by_cases a : argOfPos q.s < 0 <;> by_cases b : argOfPos q.p < 0 <;> by_cases c : argOfPos q.o < 0 <;>
    cases d <;> simp only [Order.positions, Pattern.at, a, b, c, if_true, if_false]

theorem count_three {l : List Triple} (hl : l.Nodup) {q : Pattern} {d : Order} (h1 : (q.at d.positions.1).isSome) (h2 : (q.at d.positions.2.1).isSome)
    (h3 : (q.at d.positions.2.2).isSome) (hex : ∃ t ∈ l, q.Matches t) : (l.countP fun t => decide (q.Matches t)) = 1 := by
  obtain ⟨a, ha⟩ := Option.isSome_iff_exists.1 h1
  obtain ⟨b, hb⟩ := Option.isSome_iff_exists.1 h2
  obtain ⟨c, hc⟩ := Option.isSome_iff_exists.1 h3
  obtain ⟨t, ht, hm⟩ := hex
  have huniq : ∀ u, q.Matches u ↔ u = t := by
    intro u
    constructor
    · intro hu
      refine C20_injective d u t ?_
      rw [matches_iff d] at hu hm
      unfold Order.row
      refine Prod.ext ?_ (Prod.ext ?_ ?_)
      · show d.key u = d.key t
        rw [hu.1 a ha, hm.1 a ha]
      · show (d.pair u).1 = (d.pair t).1
        rw [hu.2.1 b hb, hm.2.1 b hb]
      · show (d.pair u).2 = (d.pair t).2
        rw [hu.2.2 c hc, hm.2.2 c hc]
    · intro e; rw [e]; exact hm
  have : (l.countP fun t => decide (q.Matches t)) = l.count t := by
    rw [List.count_eq_countP]
    refine List.countP_congr fun u _ => ?_
    rw [decide_eq_true_eq, huniq]; simp
  rw [this, hl.count, if_pos ht]

/-- C25, `getCardOnIndex`, partial: after any history of updates the reported number of answers to a pattern is the number of triples that hold and
match, for every pattern with no, one or three fixed positions. (The pattern with two fixed positions is answered by `getCardinality` of an iterator: C16.) -/
theorem C25_card_on_index_partial (c : Config) (g : List T3) (h : c.Ok g) (m : Mem) (Mm : Nat → Maps) (E : UEnv) (S : Diff3.Sorts)
    (rnd : Nat → Nat → Nat → Bool × Bool) (M : Nat → Disk → Mapping) (ops : List (Bool × List T3)) (D : Disk)
    (H : AfterHistory (c.open' g m Mm) (g.map T3.triple) E S rnd M ops D) (L : InLimits (g.map T3.triple) E ops) (M' : Mapping) (hM' : M'.Of D)
    (l : List Triple) (hl : l.Nodup) (hc : ∀ t, t ∈ l ↔ content (g.map T3.triple) ops t) (d : Order) (hd : (c.open' g m Mm).Reads d) (q : Pattern) (hq : q.Wf)
    (h1 : (q.at d.positions.2.1).isSome → (q.at d.positions.1).isSome) (h2 : (q.at d.positions.2.2).isSome ↔ (q.at d.positions.2.1).isSome) :
    getCardOnIndex (c.open' g m Mm) E (c.counts g) D.ups (D.opened M') d.idx (argOfPos q.s) (argOfPos q.p) (argOfPos q.o) =
      .num (l.countP fun t => decide (q.Matches t)) := by
  obtain ⟨g', us, N⟩ := H.numbers L
  obtain ⟨D', hD', hA⟩ := C24_history_partial _ _ H.loaded H.notEmpty H.reads E H.envOk S H.sortsOk rnd M H.mapped ops L.fit L.volume L.fuel
  rw [H.done] at hD'
  obtain rfl : D = D' := by simpa using hD'
  obtain ⟨out, ⟨it, hit, hret⟩, hsort, hmem⟩ := hA M' hM' q hq d hd h1 h2.1
  unfold getCardOnIndex
  rw [permute_args]
  cases k1 : q.at d.positions.1 with
  | none =>
    have k2 : q.at d.positions.2.1 = none := by
      cases e : q.at d.positions.2.1 with
      | none => rfl
      | some _ => rw [e, k1] at h1; simp at h1
    have k3 : q.at d.positions.2.2 = none := by
      cases e : q.at d.positions.2.2 with
      | none => rfl
      | some _ => rw [e, k2] at h2; simp at h2
    rw [if_pos arg_none, C25_size c g h m Mm E S rnd M ops D H L l hl hc]
    congr 1
    have : (l.countP fun t => decide (q.Matches t)) = l.countP fun _ => true := by
      refine List.countP_congr fun t _ => ?_
      simp only [decide_eq_true_eq, iff_true]
      rw [matches_iff d, k1, k2, k3]; simp
    rw [this, List.countP_true]
  | some k =>
    have hk : 0 ≤ k := hq _ _ k1
    rw [if_neg (arg_some hk), hit]
    simp only
    by_cases hne : out = []
    · have hh : ¬ (it.I.hasNext it.s).1 = true := by rw [returns_hasNext hret]; simpa using hne
      rw [if_neg hh]
      congr 1
      have : (l.countP fun t => decide (q.Matches t)) = 0 := by
        refine List.countP_eq_zero.2 fun t ht => ?_
        rw [decide_eq_true_eq]
        intro hm
        have : d.row t ∈ out := (hmem _).2 ⟨t, (hc t).1 ht, hm, rfl⟩
        rw [hne] at this; simp at this
      rw [this]; rfl
    · rw [if_pos ((returns_hasNext hret).2 hne), unbound_eq d q, k1]
      cases k2 : q.at d.positions.2.1 with
      | none =>
        have k3 : q.at d.positions.2.2 = none := by
          cases e : q.at d.positions.2.2 with
          | none => rfl
          | some _ => rw [e, k2] at h2; simp at h2
        have hcu : countUnbound (argOfPos (some k)) (argOfPos none) (argOfPos (q.at d.positions.2.2)) ≥ 2 := by
          rw [k3]
          unfold countUnbound
          rw [if_neg (arg_some hk), if_pos arg_none]; omega
        rw [if_pos hcu]
        obtain ⟨d', hd', hf, hkey, -⟩ := Diff3.Order.first_cases d
        have hidx : (if d.idx > 2 then d.idx - 3 else d.idx) = d'.idx := by
          rw [← hf]; unfold Diff3.first
          by_cases hlt : d.idx < 3
          · rw [if_pos hlt, if_neg (by omega)]
          · rw [if_neg hlt, if_pos (by omega)]
        have hp : permsOf c.nindices d'.idx = true := by
          rw [← hf]; unfold Diff3.first
          rcases hd with hd | ⟨ge, hd⟩
          · by_cases hlt : d.idx < 3
            · rw [if_pos hlt]; exact hd
            · rw [if_neg hlt]
              exact H.loaded.partner d.idx (by omega) hd
          · rw [if_neg (by omega)]; exact hd
        simp only [hidx]
        rw [if_pos (show (c.open' g m Mm).present d'.idx = true from hp)]
        have ha : argOfPos (some k) = k := rfl
        rw [ha, N.card h d' hp (.inl hd') k hl hc]
        congr 2
        refine List.countP_congr fun t _ => ?_
        rw [decide_eq_true_eq, decide_eq_true_eq, matches_one d k1 k2 k3, hkey]
      | some k' =>
        cases k3 : q.at d.positions.2.2 with
        | none => rw [k2, k3] at h2; simp at h2
        | some k'' =>
          have hk' : 0 ≤ k' := hq _ _ k2
          have hk'' : 0 ≤ k'' := hq _ _ k3
          have hcu : countUnbound (argOfPos (some k)) (argOfPos (some k')) (argOfPos (some k'')) = 0 := by
            unfold countUnbound
            rw [if_neg (arg_some hk), if_neg (arg_some hk'), if_neg (arg_some hk'')]
          rw [hcu, if_neg (by omega), if_neg (by omega)]
          congr 1
          obtain ⟨r, hr⟩ := List.exists_mem_of_ne_nil _ hne
          obtain ⟨t, ht, hm, -⟩ := (hmem r).1 hr
          rw [count_three hl (d := d) (by rw [k1]; rfl) (by rw [k2]; rfl) (by rw [k3]; rfl) ⟨t, (hc t).2 ht, hm⟩]
          rfl

/-- The pattern with only the position `x` fixed. -/
def Pattern.one (x : Pos) (k : Int) : Pattern :=
  match x with
  | .s => ⟨some k, none, none⟩
  | .p => ⟨none, some k, none⟩
  | .o => ⟨none, none, some k⟩

/-- The order the querier chooses for it. -/
def oneOrder : Pos → Order
  | .s => .sop
  | .p => .pso
  | .o => .osp

theorem oneOrder_key (x : Pos) (t : Triple) : (oneOrder x).key t = t.at x := by cases x <;> rfl

theorem getCardInternal_one (kb : KB) (E : UEnv) (C : Counts) (ups : List Stored) (ds : List Diff3.Diff) (x : Pos) {k : Int} (hk : 0 ≤ k)
    (hp : kb.Reads (oneOrder x)) :
    getCardInternal kb E C ups ds (argOfPos (Pattern.one x k).s) (argOfPos (Pattern.one x k).p) (argOfPos (Pattern.one x k).o) =
      .num (ups.foldl (fun n u => n + (u.card (oneOrder x).idx k : Int)) (((C.nel k (oneOrder x).idx).getD 0 : Nat) : Int)) := by
  have hn : argOfPos none = -1 := rfl
  have hs : argOfPos (some k) = k := rfl
  unfold getCardInternal
  unfold KB.Reads at hp
  cases x
  · simp only [Pattern.one, hn, hs, oneOrder] at *
    have e : getIndex k (-1) (-1) = Order.sop.idx := by unfold getIndex; rw [if_pos hk, if_neg (by omega)]; rfl
    have u : countUnbound k (-1) (-1) = 2 := by unfold countUnbound; rw [if_neg (by omega), if_pos (by omega)]
    rw [if_neg (by omega), e, u, if_pos ⟨rfl, hp⟩, if_pos hk]
  · simp only [Pattern.one, hn, hs, oneOrder] at *
    have e : getIndex (-1) k (-1) = Order.pso.idx := by
      unfold getIndex
      rw [if_neg (by omega), if_neg (by omega), if_pos hk, if_neg (by omega)]; rfl
    have u : countUnbound (-1) k (-1) = 2 := by unfold countUnbound; rw [if_neg (by omega : ¬ k < 0), if_pos (by omega)]
    rw [if_neg (by omega), e, u, if_pos ⟨rfl, hp⟩, if_neg (by omega), if_pos hk]
  · simp only [Pattern.one, hn, hs, oneOrder] at *
    have e : getIndex (-1) (-1) k = Order.osp.idx := by
      unfold getIndex
      rw [if_neg (by omega), if_pos hk, if_neg (by omega)]; rfl
    have u : countUnbound (-1) (-1) k = 2 := by unfold countUnbound; rw [if_neg (by omega : ¬ k < 0), if_pos (by omega)]
    rw [if_neg (by omega), e, u, if_pos ⟨rfl, hp⟩, if_neg (by omega), if_neg (by omega)]

theorem foldl_no_del {f : Stored → Nat} (ups : List Stored) (h : ∀ u ∈ ups, u.add = false → f u = 0) (n : Int) :
    ups.foldl (fun n u => n + (f u : Int)) n = ups.foldl (fun n u => if u.add then n + (f u : Int) else n - (f u : Int)) n := by
  induction ups generalizing n with
  | nil => rfl
  | cons u ups ih =>
    rw [List.foldl_cons, List.foldl_cons, ih fun v hv => h v (by simp [hv])]
    cases ha : u.add with
    | true => simp
    | false => rw [h u (by simp) ha]; simp

/-- C25, `getCard`, partial: after any history of updates the reported number of answers is right for the pattern without fixed positions, and for
patterns with all positions fixed. -/
theorem C25_get_card_partial (c : Config) (g : List T3) (h : c.Ok g) (m : Mem) (Mm : Nat → Maps) (E : UEnv) (S : Diff3.Sorts)
    (rnd : Nat → Nat → Nat → Bool × Bool) (M : Nat → Disk → Mapping) (ops : List (Bool × List T3)) (D : Disk)
    (H : AfterHistory (c.open' g m Mm) (g.map T3.triple) E S rnd M ops D) (L : InLimits (g.map T3.triple) E ops) (M' : Mapping) (hM' : M'.Of D)
    (l : List Triple) (hl : l.Nodup) (hc : ∀ t, t ∈ l ↔ content (g.map T3.triple) ops t) (q : Pattern) (hq : q.Wf)
    (hall : (q.s = none ∧ q.p = none ∧ q.o = none) ∨ (q.s.isSome ∧ q.p.isSome ∧ q.o.isSome)) :
    getCardInternal (c.open' g m Mm) E (c.counts g) D.ups (D.opened M') (argOfPos q.s) (argOfPos q.p) (argOfPos q.o) =
      .num (l.countP fun t => decide (q.Matches t)) := by
  unfold getCardInternal
  rcases hall with ⟨h1, h2, h3⟩ | ⟨h1, h2, h3⟩
  · rw [h1, h2, h3, if_pos ⟨arg_none, arg_none, arg_none⟩, C25_size c g h m Mm E S rnd M ops D H L l hl hc]
    congr 1
    have : (l.countP fun t => decide (q.Matches t)) = l.countP fun _ => true :=
      List.countP_congr fun t _ => by simpa using matches_free h1 h2 h3 t
    rw [this, List.countP_true]
  · obtain ⟨s, hs⟩ := Option.isSome_iff_exists.1 h1
    obtain ⟨p, hp⟩ := Option.isSome_iff_exists.1 h2
    obtain ⟨o, ho⟩ := Option.isSome_iff_exists.1 h3
    have ks : 0 ≤ s := hq .s s hs
    have kp : 0 ≤ p := hq .p p hp
    have ko : 0 ≤ o := hq .o o ho
    have as : argOfPos q.s = s := by rw [hs]; rfl
    have ap : argOfPos q.p = p := by rw [hp]; rfl
    have ao : argOfPos q.o = o := by rw [ho]; rfl
    obtain ⟨D', hD', hA⟩ := C24_history_partial _ _ H.loaded H.notEmpty H.reads E H.envOk S H.sortsOk rnd M H.mapped ops L.fit L.volume L.fuel
    rw [H.done] at hD'
    obtain rfl : D = D' := by simpa using hD'
    obtain ⟨out, ⟨it, hit, hret⟩, hsort, hmem⟩ := hA M' hM' q hq .spo H.reads (fun _ => h1) (fun _ => h2)
    rw [as, ap, ao] at hit ⊢
    have hidx : getIndex s p o = Order.spo.idx := by unfold getIndex; rw [if_pos ks, if_pos (.inl kp)]; rfl
    have hu : countUnbound s p o = 0 := by
      unfold countUnbound
      rw [if_neg (by omega), if_neg (by omega), if_neg (by omega)]
    rw [if_neg (by omega), hidx, hu, if_neg (by omega), hit]
    simp only
    by_cases hne : out = []
    · have hh : ¬ (it.I.hasNext it.s).1 = true := by rw [returns_hasNext hret]; simpa using hne
      rw [if_neg hh]
      congr 1
      have : (l.countP fun t => decide (q.Matches t)) = 0 := by
        refine List.countP_eq_zero.2 fun t ht => ?_
        rw [decide_eq_true_eq]
        intro hm
        have : Order.spo.row t ∈ out := (hmem _).2 ⟨t, (hc t).1 ht, hm, rfl⟩
        rw [hne] at this; simp at this
      rw [this]; rfl
    · rw [if_pos ((returns_hasNext hret).2 hne), if_pos trivial]
      congr 1
      obtain ⟨r, hr⟩ := List.exists_mem_of_ne_nil _ hne
      obtain ⟨t, ht, hm, -⟩ := (hmem r).1 hr
      rw [count_three hl (d := .spo) h1 h2 h3 ⟨t, (hc t).2 ht, hm⟩]
      rfl

/-- C25, `getCard`, partial: with one fixed position the reported number is right if all six indices were built without skipping tables and no
deletion was requested of a triple with that term. -/
theorem C25_get_card_one_partial (c : Config) (g : List T3) (h : c.Ok g) (h6 : c.nindices = 6) (hskip : c.canSkip = false) (m : Mem) (Mm : Nat → Maps) (E : UEnv)
    (S : Diff3.Sorts) (rnd : Nat → Nat → Nat → Bool × Bool) (M : Nat → Disk → Mapping) (ops : List (Bool × List T3)) (D : Disk)
    (H : AfterHistory (c.open' g m Mm) (g.map T3.triple) E S rnd M ops D) (L : InLimits (g.map T3.triple) E ops) (ds : List Diff3.Diff)
    (l : List Triple) (hl : l.Nodup) (hc : ∀ t, t ∈ l ↔ content (g.map T3.triple) ops t) (x : Pos) (k : Int) (hk : 0 ≤ k)
    (hdel : ∀ u ∈ ops, u.1 = false → ∀ t ∈ u.2, t.triple.at x ≠ k) :
    getCardInternal (c.open' g m Mm) E (c.counts g) D.ups ds (argOfPos (Pattern.one x k).s) (argOfPos (Pattern.one x k).p) (argOfPos (Pattern.one x k).o) =
      .num (l.countP fun t => decide (t.at x = k)) := by
  obtain ⟨g', us, N⟩ := H.numbers L
  have hp : permsOf c.nindices (oneOrder x).idx = true := by rw [h6]; cases x <;> decide
  rw [getCardInternal_one _ _ _ _ _ _ hk (.inl hp), foldl_no_del, N.card h (oneOrder x) hp (.inr hskip) k hl hc]
  · congr 2
    exact List.countP_congr fun t _ => by rw [oneOrder_key]
  · intro u hu ha
    obtain ⟨i, hi⟩ := List.mem_iff_getElem?.1 hu
    have hlt : i < us.length := by rw [← N.numbered.1]; exact (List.getElem?_eq_some_iff.1 hi).1
    have hn := N.numbered.2 i u us[i] hi (List.getElem?_eq_getElem hlt)
    rw [hn.card (oneOrder x) _ rfl]
    obtain ⟨r, hr, e1, e2⟩ := N.asked us[i] (List.getElem_mem hlt)
    refine List.countP_eq_zero.2 fun t ht => ?_
    rw [decide_eq_true_eq, oneOrder_key]
    obtain ⟨y, hy, rfl⟩ := List.mem_map.1 (e2 t ht)
    exact hdel r hr (by rw [← e1, ← hn.1, ha]) y hy

/-! ## Refutations -/

theorem nel_not_built {c : Config} {g : List T3} (h : c.Ok g) {i : Nat} (hp : ¬ permsOf c.nindices i = true) (k : Int) : ((c.counts g).nel k i).getD 0 = 0 := by
  obtain ⟨-, -, t3⟩ := h.tree_spec
  show (((c.tree g).find? fun e => (e.1 : Int) = k).bind _).getD 0 = 0
  cases hf : (c.tree g).find? fun e => (e.1 : Int) = k with
  | none => rfl
  | some x =>
    simp only [Option.bind_some]
    rw [t3 x (List.mem_of_find?_eq_some hf), ins_neg hp]
    rfl

/-- C25 is false with three indices: `getCard` looks up the number of elements in an index that was not built. The number of answers to any pattern
with one fixed term is reported as 0, whatever the graph is. -/
theorem C25_three_indices_violated (c : Config) (g : List T3) (h : c.Ok g) (h3 : c.nindices = 3) (m : Mem) (Mm : Nat → Maps) (E : UEnv) (t : T3) (_ : t ∈ g) (x : Pos) :
    getCardInternal (c.open' g m Mm) E (c.counts g) [] [] (argOfPos (Pattern.one x (t.triple.at x)).s) (argOfPos (Pattern.one x (t.triple.at x)).p)
      (argOfPos (Pattern.one x (t.triple.at x)).o) = .num 0 := by
  have hk : 0 ≤ t.triple.at x := by cases x <;> exact Int.natCast_nonneg _
  rw [getCardInternal_one _ _ _ _ _ _ hk, nel_not_built h]
  · rfl
  · rw [h3]; cases x <;> decide
  · refine .inr ⟨by cases x <;> decide, ?_⟩
    show permsOf c.nindices _ = true
    rw [h3]; cases x <;> decide

/-- C25 is false if small tables were skipped: the number of answers to a pattern with one fixed term is reported as 0 if it is below the threshold. -/
theorem C25_skipped_tables_violated (c : Config) (g : List T3) (h : c.Ok g) (h6 : c.nindices = 6) (hskip : c.canSkip = true) (m : Mem) (Mm : Nat → Maps) (E : UEnv)
    (l : List Triple) (hl : l.Nodup) (hm : ∀ t, t ∈ l ↔ t ∈ g.map T3.triple) (t : T3) (_ : t ∈ g) (x : Pos)
    (hfew : (l.countP fun u => decide (u.at x = t.triple.at x)) < c.skipThr) :
    getCardInternal (c.open' g m Mm) E (c.counts g) [] [] (argOfPos (Pattern.one x (t.triple.at x)).s) (argOfPos (Pattern.one x (t.triple.at x)).p)
      (argOfPos (Pattern.one x (t.triple.at x)).o) = .num 0 := by
  have hk : 0 ≤ t.triple.at x := by cases x <;> exact Int.natCast_nonneg _
  have hp : permsOf c.nindices (oneOrder x).idx = true := by rw [h6]; cases x <;> decide
  rw [getCardInternal_one _ _ _ _ _ _ hk (.inl hp)]
  have : ((c.counts g).nel (t.triple.at x) (oneOrder x).idx).getD 0 = 0 := by
    obtain ⟨-, -, t3⟩ := h.tree_spec
    show (((c.tree g).find? fun e => (e.1 : Int) = t.triple.at x).bind _).getD 0 = 0
    cases hf : (c.tree g).find? fun e => (e.1 : Int) = t.triple.at x with
    | none => rfl
    | some y =>
      simp only [Option.bind_some]
      rw [t3 y (List.mem_of_find?_eq_some hf)]
      cases hr : rec? y.1 (c.ins g (oneOrder x).idx).tree with
      | none => rfl
      | some e =>
        exfalso
        obtain ⟨he, hek⟩ := (rec_some (h.mok.sorted _)).1 hr
        rw [ins_pos hp] at he
        obtain ⟨ps, hkp, hns, -⟩ := (h.load (oneOrder x).idx).2.1 e he
        have hy : (y.1 : Int) = t.triple.at x := by simpa using List.find?_some hf
        have hlen := keyPairs_length h hl hm hkp (show (e.key : Int) = t.triple.at x by rw [hek]; exact hy)
        refine hns ⟨by show (oneOrder x).idx ≥ 3; cases x <;> decide, ?_, ?_⟩
        · show (c.canSkip && decide ((oneOrder x).idx ≥ 3)) = true
          rw [hskip]; cases x <;> rfl
        · show ps.length < c.skipThr
          rw [hlen]
          refine Nat.lt_of_le_of_lt (Nat.le_of_eq ?_) hfew
          exact List.countP_congr fun u _ => by rw [oneOrder_key]
  rw [this]
  rfl

/-- The example graph with all indices and no skipped tables. -/
def exSix : Config := ⟨6, false, 2, none, 10, false, 9, 20, sortRows⟩

theorem exSixOk : exSix.Ok exTwo where
  sort := sortRows_sorts
  nindices := by decide
  skip := by decide
  fixed := .inl rfl
  ids := by decide
  len := by decide
  nfiles := by
    intro i
    by_cases hi : i < 6
    · have : ∀ i, i < 6 → (exSix.ins exTwo i).store.files.length ≤ 2 ^ 15 := by decide +kernel
      exact this i hi
    · have : ¬ permsOf 6 i = true := fun h => hi (permsOf_lt h)
      rw [ins_neg this]; decide
  fsize := by
    intro i
    by_cases hi : i < 6
    · have : ∀ i, i < 6 → ∀ f ∈ (exSix.ins exTwo i).store.files, f.bytes.length < 2 ^ 40 := by decide +kernel
      exact this i hi
    · have : ¬ permsOf 6 i = true := fun h => hi (permsOf_lt h)
      rw [ins_neg this]; decide

theorem exSix_history (ops : List (Bool × List T3)) (hfit : OpsFit ops) (hv : volume ops < 90) : ∃ m Mm M D,
    (∀ i, i < 6 → Mapped m (Mm i) (exSix.ins exTwo i).store.files) ∧
    AfterHistory (exSix.open' exTwo m Mm) (exTwo.map T3.triple) exEnv msorts (fun _ _ _ => (true, false)) M ops D ∧ InLimits (exTwo.map T3.triple) exEnv ops := by
  obtain ⟨m, Mm, hMm⟩ := exists_mapped fun i => (exSix.ins exTwo i).store.files
  have hM := fun (_ : Nat) (D : Disk) => Classical.choose_spec (exists_mapping D)
  have hall : (exSix.open' exTwo m Mm).Reads .spo := .inl rfl
  have hf : (exTwo.map T3.triple).length + volume ops < exEnv.fuel := by show 2 + volume ops < 100; omega
  obtain ⟨D, hD, -⟩ := C24_history_partial (exSix.open' exTwo m Mm) _ (exSixOk.loaded hMm) (by decide) hall exEnv exEnv_ok msorts msorts_ok
    (fun _ _ _ => (true, false)) _ hM ops hfit (by omega) hf
  exact ⟨m, Mm, _, D, hMm, ⟨exSixOk.loaded hMm, by decide, hall, exEnv_ok, msorts_ok, hM, hD⟩, hfit, by omega, hf⟩

/-- C25 is false for `getCard` after a deletion: the numbers of the deleted triples are added. The only triple with subject 4 is deleted, and the number of
answers to the pattern with this subject is reported as 2. -/
theorem C25_deletions_counted_violated : ∃ c g m Mm E S, ∃ rnd M ops D, Config.Ok c g ∧ c.nindices = 6 ∧ c.canSkip = false ∧
    AfterHistory (c.open' g m Mm) (g.map T3.triple) E S rnd M ops D ∧ InLimits (g.map T3.triple) E ops ∧
    (∀ ds, getCardInternal (c.open' g m Mm) E (c.counts g) D.ups ds 4 (-1) (-1) = .num 2) ∧
    ∀ t, content (g.map T3.triple) ops t → t.s ≠ 4 := by
  obtain ⟨m, Mm, M, D, hMm, H, L⟩ := exSix_history [(false, [(4, 5, 6)])] ⟨by decide, by decide⟩ (by decide)
  refine ⟨exSix, exTwo, m, Mm, exEnv, msorts, _, M, _, D, exSixOk, rfl, rfl, H, L, fun ds => ?_, ?_⟩
  · have hnd : (exTwo.map T3.triple).Nodup := by decide
    have hk := getCardInternal_one (exSix.open' exTwo m Mm) exEnv (exSix.counts exTwo) D.ups ds .s (k := 4) (by decide) (.inl rfl)
    refine hk.trans ?_
    have hn := exSixOk.nel (oneOrder .s) rfl (.inr rfl) hnd (fun _ => Iff.rfl) 4
    rw [hn]
    obtain ⟨ts, e, nd, -, hmem⟩ := update_spec H.loaded H.envOk H.sortsOk (fun _ _ => (true, false)) (DiskOk.empty _) (H.mapped 0 Disk.empty) (by decide) H.notEmpty H.reads
      false [(4, 5, 6)]
    have hts : ts = [(4, 5, 6)] := by
      have hp : ts.Perm [(4, 5, 6)] := (List.perm_ext_iff_of_nodup nd (by decide)).2 fun t => by
        rw [hmem]
        constructor
        · exact fun h => h.1
        · intro h
          refine ⟨h, ?_⟩
          obtain rfl := List.mem_singleton.1 h
          decide
      exact List.perm_singleton.1 hp
    have hD := H.done
    unfold updates at hD
    simp only [e, hts, List.isEmpty_cons, Bool.false_eq_true, if_false, updates, Option.some.injEq] at hD
    have hA := AllNumbered.write (D := Disk.empty) (us := []) ⟨rfl, fun i x u h => by simp [Disk.empty] at h⟩ msorts_ok (fun _ _ => (true, false)) false [(4, 5, 6)]
      (by decide) (by decide)
    rw [hD] at hA
    have hl1 : D.ups.length = 1 := hA.1
    obtain ⟨u, hu⟩ := List.length_eq_one_iff.1 hl1
    have hc := (hA.2 0 u _ (by rw [hu]; rfl) rfl).card .sop Order.sop.idx rfl 4
    rw [hu]
    show CardRes.num (((List.countP _ _ : Nat) : Int) + ((u.card Order.sop.idx 4 : Nat) : Int)) = _
    rw [hc]
    congr 1
  · rintro t ⟨ht, hn⟩ hs
    simp only [exTwo, List.map_cons, List.map_nil, List.mem_cons, List.not_mem_nil, or_false] at ht
    rcases ht with rfl | rfl
    · simp [T3.triple] at hs
    · exact hn (by simp)

/-- C25 is false for `getCard` because the answers are remembered by the address of the querier, in a table that is never cleared: a querier that
is created at the address of an earlier one, which asked the same pattern, returns the old number. -/
theorem C25_memo_violated (T : Memo) (q : Nat) (f f' : Int → Int → Int → Int) (s p o : Int) (hT : ∀ e ∈ T, e.1.1 ≠ q) (hne : f' s p o ≠ f s p o) :
    (getCard (getCard T q f s p o).2 q f' s p o).1 = f s p o ∧ (getCard (getCard T q f s p o).2 q f' s p o).1 ≠ f' s p o := by
  have h1 : T.find? (fun e => decide (e.1 = (q, s, p, o))) = none := by
    refine List.find?_eq_none.2 fun e he => ?_
    rw [decide_eq_true_eq]
    intro h
    exact hT e he (by rw [h])
  have h2 : getCard T q f s p o = (f s p o, ((q, s, p, o), f s p o) :: T) := by unfold getCard; rw [h1]
  have h3 : (getCard (getCard T q f s p o).2 q f' s p o).1 = f s p o := by
    rw [h2]
    unfold getCard
    rw [List.find?_cons_of_pos (by simp)]
  exact ⟨h3, by rw [h3]; exact fun h => hne h.symm⟩

/-! ## Non-vacuity -/

theorem exThree_content3 (t : Triple) : content (exTwo.map T3.triple) exThree t ↔ t ∈ [(⟨1, 2, 3⟩ : Triple), ⟨7, 8, 9⟩, ⟨8, 1, 1⟩] := by
  show holdsAfter (holdsAfter (· ∈ exTwo.map T3.triple) [request true [(7, 8, 9)]]) [request false [(4, 5, 6)]] t ∨ t ∈ [((8, 1, 1) : T3)].map T3.triple ↔ _
  rw [exThree_content2]
  simp [T3.triple, or_assoc]

/-- Three updates of the example graph: 3 triples, one of them with predicate 8, none with subject 4, and `(7, 8, 9)` is there. -/
example : ∃ m Mm M D, AfterHistory (exSix.open' exTwo m Mm) (exTwo.map T3.triple) exEnv msorts (fun _ _ _ => (true, false)) M exThree D ∧
    getInputSize (exSix.counts exTwo) D.ups = 3 ∧
    (∀ M', M'.Of D → getCardOnIndex (exSix.open' exTwo m Mm) exEnv (exSix.counts exTwo) D.ups (D.opened M') Order.pso.idx (-1) 8 (-1) = .num 1) ∧
    (∀ M', M'.Of D → getCardOnIndex (exSix.open' exTwo m Mm) exEnv (exSix.counts exTwo) D.ups (D.opened M') Order.spo.idx 4 (-1) (-1) = .num 0) ∧
    (∀ M', M'.Of D → getCardInternal (exSix.open' exTwo m Mm) exEnv (exSix.counts exTwo) D.ups (D.opened M') 7 8 9 = .num 1) ∧
    ∀ ds, getCardInternal (exSix.open' exTwo m Mm) exEnv (exSix.counts exTwo) D.ups ds (-1) (-1) 9 = .num 1 := by
  obtain ⟨m, Mm, M, D, hMm, H, L⟩ := exSix_history exThree ⟨by decide, by decide⟩ (by decide)
  have hl : [(⟨1, 2, 3⟩ : Triple), ⟨7, 8, 9⟩, ⟨8, 1, 1⟩].Nodup := by decide
  have hc := fun t => (exThree_content3 t).symm
  refine ⟨m, Mm, M, D, H, ?_, fun M' hM' => ?_, fun M' hM' => ?_, fun M' hM' => ?_, fun ds => ?_⟩
  · exact C25_size exSix exTwo exSixOk m Mm exEnv msorts _ M exThree D H L _ hl hc
  · exact (C25_card_on_index_partial exSix exTwo exSixOk m Mm exEnv msorts _ M exThree D H L M' hM' _ hl hc .pso (.inl rfl) ⟨none, some 8, none⟩
      (by intro x v hv; cases x <;> cases hv; decide) (by decide) (by decide)).trans (by congr 1)
  · exact (C25_card_on_index_partial exSix exTwo exSixOk m Mm exEnv msorts _ M exThree D H L M' hM' _ hl hc .spo (.inl rfl) ⟨some 4, none, none⟩
      (by intro x v hv; cases x <;> cases hv; decide) (by decide) (by decide)).trans (by congr 1)
  · exact (C25_get_card_partial exSix exTwo exSixOk m Mm exEnv msorts _ M exThree D H L M' hM' _ hl hc ⟨some 7, some 8, some 9⟩
      (by intro x v hv; cases x <;> cases hv <;> decide) (by decide)).trans (by congr 1)
  · exact (C25_get_card_one_partial exSix exTwo exSixOk rfl rfl m Mm exEnv msorts _ M exThree D H L ds _ hl hc .o 9 (by decide)
      (by decide)).trans (by congr 1)

/-- The two other refutations on example graphs. -/
example (m Mm) : getCardInternal (exConfig.open' exTwo m Mm) exEnv (exConfig.counts exTwo) [] [] 4 (-1) (-1) = .num 0 :=
  C25_skipped_tables_violated exConfig exTwo exTwoOk rfl rfl m Mm exEnv _ (by decide) (fun _ => Iff.rfl) (4, 5, 6) (by decide) .s (by decide)

theorem exThreeIndicesOk : Config.Ok ⟨3, false, 2, none, 10, false, 9, 20, sortRows⟩ exTwo where
  sort := sortRows_sorts
  nindices := by decide
  skip := by decide
  fixed := .inl rfl
  ids := by decide
  len := by decide
  nfiles := by
    intro i
    by_cases hi : i < 6
    · have : ∀ i, i < 6 → (Config.ins ⟨3, false, 2, none, 10, false, 9, 20, sortRows⟩ exTwo i).store.files.length ≤ 2 ^ 15 := by decide +kernel
      exact this i hi
    · have : ¬ permsOf 3 i = true := fun h => hi (permsOf_lt h)
      rw [ins_neg this]; decide
  fsize := by
    intro i
    by_cases hi : i < 6
    · have : ∀ i, i < 6 → ∀ f ∈ (Config.ins ⟨3, false, 2, none, 10, false, 9, 20, sortRows⟩ exTwo i).store.files, f.bytes.length < 2 ^ 40 := by decide +kernel
      exact this i hi
    · have : ¬ permsOf 3 i = true := fun h => hi (permsOf_lt h)
      rw [ins_neg this]; decide

example (m Mm) : getCardInternal (Config.open' ⟨3, false, 2, none, 10, false, 9, 20, sortRows⟩ exTwo m Mm) exEnv (Config.counts ⟨3, false, 2, none, 10, false, 9, 20, sortRows⟩ exTwo)
    [] [] (-1) 5 (-1) = .num 0 :=
  C25_three_indices_violated _ exTwo exThreeIndicesOk rfl m Mm exEnv (4, 5, 6) (by decide) .p

/-- Two queriers at one address, before and after the addition of a triple: 2 triples, then 3, and the second is told 2. -/
example : (getCard (getCard [] 4096 (fun _ _ _ => 2) (-1) (-1) (-1)).2 4096 (fun _ _ _ => 3) (-1) (-1) (-1)).1 = 2 :=
  (C25_memo_violated [] 4096 (fun _ _ _ => 2) (fun _ _ _ => 3) (-1) (-1) (-1) (by simp) (by decide)).1

end Trident
