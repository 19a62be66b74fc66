import Verif.Update.Card
import Verif.Update.SubjectsProofs
import Verif.Load.LoaderProofs
/-! Helper proofs for sizes and cardinalities (no property statements here). -/
namespace Trident.Upd
open Load Diff3 Strat

/-! ## Counting -/

theorem countP_apply {P : Triple → Bool} {g : List Triple} {u : Update} (hg : g.Nodup) (hf : u.Fresh g) :
    ((u.apply g).countP P : Int) = if isAdd u then (g.countP P : Int) + u.triples.countP P else (g.countP P : Int) - u.triples.countP P := by
  cases u with
  | add ts =>
    show ((g ++ ts).countP P : Int) = (g.countP P : Int) + ts.countP P
    rw [List.countP_append]; omega
  | del ts =>
    show ((g.filter fun t => decide (t ∉ ts)).countP P : Int) = (g.countP P : Int) - ts.countP P
    have hp : g.Perm (g.filter (fun t => decide (t ∉ ts)) ++ ts) := by
      refine (List.perm_ext_iff_of_nodup hg ?_).2 fun t => ?_
      · refine List.nodup_append.2 ⟨hg.filter _, hf.1, ?_⟩
        intro a ha b hb e
        subst e
        have := (List.mem_filter.1 ha).2
        simp only [decide_eq_true_eq] at this
        exact this hb
      · rw [List.mem_append, List.mem_filter, decide_eq_true_eq]
        constructor
        · intro h
          by_cases ht : t ∈ ts
          · exact .inr ht
          · exact .inl ⟨h, ht⟩
        · rintro (h | h)
          · exact h.1
          · exact hf.2 t h
    have := hp.countP_eq P
    rw [List.countP_append] at this
    omega

theorem nodup_apply' {g : List Triple} {u : Update} (hg : g.Nodup) (hf : u.Fresh g) : (u.apply g).Nodup := by
  cases u with
  | add ts =>
    refine List.nodup_append.2 ⟨hg, hf.1, ?_⟩
    intro a ha b hb e
    subst e
    exact hf.2 a hb ha
  | del ts => exact hg.filter _

/-- Updates are applied in order; `f u` is the number of triples of `u` in `P`. -/
theorem foldl_countP {P : Triple → Bool} {f : Stored → Nat} (R : Stored → Update → Prop)
    (hR : ∀ x u, R x u → x.add = isAdd u ∧ f x = u.triples.countP P) :
    ∀ (ups : List Stored) (us : List Update), List.length ups = us.length → (∀ (i : Nat) x u, ups[i]? = some x → us[i]? = some u → R x u) →
    ∀ (g : List Triple), g.Nodup → FreshAll g us →
    ups.foldl (fun n u => if u.add then n + (f u : Int) else n - (f u : Int)) (g.countP P : Int) = ((applyAll g us).countP P : Int) := by
  intro ups
  induction ups with
  | nil =>
    intro us hl _ g _ _
    cases us with
    | nil => rfl
    | cons _ _ => simp at hl
  | cons x ups ih =>
    intro us hl hall g hg hf
    cases us with
    | nil => simp at hl
    | cons u us =>
      obtain ⟨ha, hc⟩ := hR x u (hall 0 x u rfl rfl)
      have := ih us (by simpa using hl) (fun i x' u' h1 h2 => hall (i + 1) x' u' h1 h2) (u.apply g) (nodup_apply' hg hf.1) hf.2
      rw [countP_apply hg hf.1] at this
      rw [List.foldl_cons, ha, hc]
      exact this

theorem sum_count_cons (K : List Int) (hK : K.Nodup) (a : Int) (ha : a ∈ K) (ks : List Int) :
    (K.map fun k => (a :: ks).count k).sum = (K.map fun k => ks.count k).sum + 1 := by
  induction K with
  | nil => simp at ha
  | cons k K ih =>
    rw [List.nodup_cons] at hK
    simp only [List.map_cons, List.sum_cons]
    by_cases hk : a = k
    · subst hk
      have : (K.map fun k => (a :: ks).count k) = K.map fun k => ks.count k := by
        refine List.map_congr_left fun x hx => ?_
        rw [List.count_cons_of_ne (fun (e : a = x) => hK.1 (by rw [e]; exact hx))]
      rw [this, List.count_cons_self]; omega
    · have := ih hK.2 ((List.mem_cons.1 ha).resolve_left hk)
      rw [this, List.count_cons_of_ne hk]; omega

theorem sum_count (K : List Int) (hK : K.Nodup) (ks : List Int) (h : ∀ k ∈ ks, k ∈ K) : (K.map fun k => ks.count k).sum = ks.length := by
  induction ks with
  | nil =>
    have : K.map (fun k => ([] : List Int).count k) = K.map fun _ => 0 := List.map_congr_left fun _ _ => rfl
    rw [this]
    clear this hK h
    induction K with
    | nil => rfl
    | cons _ _ ih => simpa using ih
  | cons a ks ih =>
    rw [sum_count_cons K hK a (h a (by simp)), ih fun k hk => h k (by simp [hk])]
    rfl

/-- The numbers in a tree of an update. -/
def Numbered (x : Stored) (u : Update) : Prop :=
  x.add = isAdd u ∧ ∀ d : Order, IsTermList (u.triples.map d.key) ((x.out (first d.idx)).keys.map fun k => ((k.key : Int), (k.n : Int)))

theorem Numbered.size {x : Stored} {u : Update} (h : Numbered x u) : x.size = u.triples.countP fun _ => true := by
  obtain ⟨h1, h2, h3⟩ := h.2 .spo
  have e : first Order.spo.idx = 0 := rfl
  rw [e] at h1 h2 h3
  have hK : ((x.out 0).keys.map fun k => (k.key : Int)).Nodup := by
    rw [List.map_map] at h1
    exact h1.imp fun {a b} hab => by omega
  have hs := sum_count _ hK (u.triples.map Order.spo.key) fun k hk => by
    have := (h2 k).2 hk
    rw [List.map_map] at this
    exact this
  rw [List.map_map, List.length_map] at hs
  rw [List.countP_true, ← hs]
  unfold Stored.size
  congr 1
  refine List.map_congr_left fun k hk => ?_
  have := h3 ((k.key : Int), (k.n : Int)) (List.mem_map.2 ⟨k, hk, rfl⟩)
  simp only at this
  exact Int.ofNat.inj this

theorem count_map_key (d : Order) (l : List Triple) (k : Int) : (l.map d.key).count k = l.countP fun t => decide (d.key t = k) := by
  rw [List.count_eq_countP, List.countP_map]
  refine List.countP_congr fun t _ => ?_
  simp [beq_iff_eq]

theorem Numbered.card {x : Stored} {u : Update} (h : Numbered x u) (d : Order) (i : Nat) (hi : first i = first d.idx) (k : Int) :
    x.card i k = u.triples.countP fun t => decide (d.key t = k) := by
  obtain ⟨h1, h2, h3⟩ := h.2 d
  rw [← count_map_key]
  unfold Stored.card
  rw [hi]
  cases hf : (x.out (first d.idx)).keys.find? fun e => (e.key : Int) = k with
  | some e =>
    have hm := List.mem_of_find?_eq_some hf
    have hk : (e.key : Int) = k := by simpa using List.find?_some hf
    have := h3 ((e.key : Int), (e.n : Int)) (List.mem_map.2 ⟨e, hm, rfl⟩)
    simp only [hk] at this
    simp only
    omega
  | none =>
    simp only
    refine (List.count_eq_zero.2 fun hk => ?_).symm
    have := (h2 k).2 hk
    rw [List.map_map] at this
    obtain ⟨e, he, hek⟩ := List.mem_map.1 this
    have := List.find?_eq_none.1 hf e he
    simp only [decide_eq_true_eq] at this
    exact this hek

/-- Every update on disk has the right numbers. -/
def AllNumbered (D : Disk) (us : List Update) : Prop :=
  D.ups.length = us.length ∧ ∀ (i : Nat) x u, D.ups[i]? = some x → us[i]? = some u → Numbered x u

theorem AllNumbered.write {D : Disk} {us : List Update} (h : AllNumbered D us) {S : Sorts} (hS : S.Ok) (rnd : Nat → Nat → Bool × Bool) (add : Bool) (ts : List T3)
    (hn : ts.Nodup) (hids : ∀ t ∈ ts, t.1 < 2 ^ 32 - 1 ∧ t.2.1 < 2 ^ 32 - 1 ∧ t.2.2 < 2 ^ 32 - 1) : AllNumbered (D.write S rnd add ts) (us ++ [request add ts]) := by
  refine ⟨by simp [Disk.write, h.1], fun i x u hx hu => ?_⟩
  by_cases hi : i < us.length
  · rw [Disk.write, List.getElem?_append_left (by rw [h.1]; exact hi)] at hx
    rw [List.getElem?_append_left hi] at hu
    exact h.2 i x u hx hu
  · have hx' : i = us.length := by
      have := (List.getElem?_eq_some_iff.1 hu).1
      simp at this; omega
    subst hx'
    rw [List.getElem?_append_right (Nat.le_refl _)] at hu
    rw [Disk.write, ← h.1, List.getElem?_append_right (Nat.le_refl _)] at hx
    simp only [Nat.sub_self, List.getElem?_cons_zero, Option.some.injEq] at hx hu
    subst hx hu
    refine ⟨by cases add <;> rfl, fun d => ?_⟩
    rw [request_triples]
    exact build_isTermList hS rnd D.glob hn hids d

/-! ## The numbers of the stored graph -/

/-- The state of the inserter after `m` appended or buffered pairs. -/
structure InsNum (s : Ins) (m : Nat) : Prop where
  buf : s.n ≤ THRESHOLD → s.values.length = s.n ∧ s.appended + s.n = m
  out : THRESHOLD < s.n → s.appended = m
  none : s.t1 = -1 → s.n = 0

theorem closeTable_appended (P : Params) (s : Ins) : (s.closeTable P).appended = s.appended := by
  unfold Ins.closeTable
  split
  · rfl
  · split <;> rfl

theorem storeValues_appended {P : Params} (hp : P.perm < 3) (s : Ins) (vs : List (Nat × Nat)) :
    (s.storeValues P vs).appended = s.appended + vs.length ∧ (s.storeValues P vs).n = s.n ∧ (s.storeValues P vs).t1 = s.t1 := by
  have : ¬ (P.perm ≥ 3 ∧ P.canSkip = true ∧ vs.length < P.skipThr) := by omega
  unfold Ins.storeValues
  rw [if_neg this]
  exact ⟨rfl, rfl, rfl⟩

theorem InsNum.write {P : Params} (hp : P.perm < 3) {s : Ins} {m : Nat} (h : InsNum s m) : (s.writeCurrent P).appended = m := by
  unfold Ins.writeCurrent
  rw [closeTable_appended]
  by_cases hn : s.n ≤ THRESHOLD
  · rw [if_pos hn, (storeValues_appended hp _ _).1]
    have := h.buf hn
    omega
  · rw [if_neg hn]; exact h.out (by omega)

theorem InsNum.insert {P : Params} (hp : P.perm < 3) {s : Ins} {m : Nat} (h : InsNum s m) (r : Nat × Nat × Nat) : InsNum (s.insert P r) (m + 1) := by
  have hk : InsNum (s.newKey P r.1) m ∧ (s.newKey P r.1).t1 ≠ -1 := by
    unfold Ins.newKey
    by_cases hr : (r.1 : Int) ≠ s.t1
    · rw [if_pos hr]
      refine ⟨⟨fun _ => ⟨rfl, ?_⟩, fun hc => by simp at hc, fun hc => rfl⟩, by show (r.1 : Int) ≠ -1; omega⟩
      by_cases ht : s.t1 ≠ -1
      · rw [if_pos ht]; exact h.write hp
      · rw [if_neg ht]
        have h0 := h.none (by omega)
        have := (h.buf (by omega)).2
        show s.appended + 0 = m
        omega
    · rw [if_neg hr]; exact ⟨h, by omega⟩
  obtain ⟨hk, ht⟩ := hk
  unfold Ins.insert
  generalize s.newKey P r.1 = s' at *
  unfold Ins.addPair
  by_cases h1 : s'.n < THRESHOLD
  · rw [if_pos h1]
    have := hk.buf (by omega)
    exact ⟨fun _ => ⟨by simp [this.1], by show s'.appended + (s'.n + 1) = _; omega⟩, fun hc => by simp only at hc; omega, fun hc => absurd hc ht⟩
  · rw [if_neg h1]
    by_cases h2 : s'.n = THRESHOLD
    · rw [if_pos h2]
      have := hk.buf (by omega)
      obtain ⟨a, b, c⟩ := storeValues_appended hp ({ s' with n := s'.n + 1 } : Ins) s'.values
      refine ⟨fun hc => ?_, fun _ => ?_, fun hc => ?_⟩
      · simp only [Ins.appendPair, b] at hc; omega
      · simp only [Ins.appendPair, a]; omega
      · simp only [Ins.appendPair, c] at hc; exact absurd hc ht
    · rw [if_neg h2]
      have := hk.out (by omega)
      refine ⟨fun hc => ?_, fun _ => ?_, fun hc => absurd hc ht⟩
      · simp only [Ins.appendPair] at hc; omega
      · simp only [Ins.appendPair]; omega

theorem insNum_fold {P : Params} (hp : P.perm < 3) (rows : List (Nat × Nat × Nat)) {s : Ins} {m : Nat} (h : InsNum s m) :
    InsNum (rows.foldl (Ins.insert P) s) (m + rows.length) := by
  induction rows generalizing s m with
  | nil => exact h
  | cons r rows ih =>
    have := ih (h.insert hp r)
    rw [List.foldl_cons, List.length_cons, show m + (rows.length + 1) = m + 1 + rows.length by omega]
    exact this

theorem loadPerm_appended {P : Params} (hp : P.perm < 3) (rows : List (Nat × Nat × Nat)) : (loadPerm P rows).appended = (squeeze none rows).length := by
  unfold loadPerm
  rw [loadRows_eq]
  have h0 : InsNum ({} : Ins) 0 := ⟨fun _ => ⟨rfl, rfl⟩, fun h => absurd h (by simp), fun _ => rfl⟩
  have h := insNum_fold hp (squeeze none rows) h0
  rw [Nat.zero_add] at h
  generalize (squeeze none rows).foldl (Ins.insert P) {} = s at *
  unfold Ins.flush
  by_cases ht : s.t1 ≠ -1
  · simp only [if_pos ht]; exact h.write hp
  · simp only [if_neg ht]
    have h0 := h.none (by omega)
    have := (h.buf (by omega)).2
    omega

theorem rowLt_nodup {l : List (Nat × Nat × Nat)} (h : l.Pairwise rowLt) : l.Nodup :=
  h.imp fun {a b} hab e => by subst e; simp only [rowLt] at hab; omega

variable {c : Config} {g : List T3}

theorem _root_.Trident.Load.Config.Ok.inputSize (h : c.Ok g) {l : List Triple} (hl : l.Nodup) (hm : ∀ t, t ∈ l ↔ t ∈ g.map T3.triple) :
    (c.counts g).inputSize = l.length := by
  have hp : permsOf c.nindices 0 = true := by rcases h.nindices with e | e | e | e <;> rw [e] <;> decide
  show (c.ins g 0).appended = _
  rw [ins_pos hp, loadPerm_appended (by show (0 : Nat) < 3; omega)]
  have hq := squeeze_spec (prev := none) (h.sort (g.map (permRow 0))).1 (by simp)
  have hn := rowLt_nodup hq.1
  have hmem : ∀ r, r ∈ squeeze none (c.rows g 0) ↔ r ∈ g := by
    intro r
    rw [Config.rows, hq.2.2, ← Config.rows, h.mem_rows]
    constructor
    · rintro ⟨⟨t, ht, e⟩, -⟩
      have : permRow 0 t = t := rfl
      rw [← e, this]; exact ht
    · intro hr; exact ⟨⟨r, hr, rfl⟩, by simp⟩
  have : (l.map fun t => t).Perm ((squeeze none (c.rows g 0)).map T3.triple) := by
    refine (List.perm_ext_iff_of_nodup (by simpa using hl) ?_).2 fun t => ?_
    · exact List.pairwise_map.2 (hn.imp fun {a b} hab e => hab (triple_inj e))
    · rw [List.map_id', hm, List.mem_map, List.mem_map]
      exact exists_congr fun a => and_congr_left fun _ => (hmem a).symm
  have := this.length_eq
  simp only [List.length_map] at this
  exact this.symm

/-- The number of pairs of a key. -/
theorem keyPairs_length (h : c.Ok g) {d : Order} {l : List Triple} (hl : l.Nodup) (hm : ∀ t, t ∈ l ↔ t ∈ g.map T3.triple) {n : Nat} {k : Int} {qs : List (Nat × Nat)}
    (hkq : KeyPairs (c.rows g d.idx) n qs) (hekk : (n : Int) = k) : qs.length = l.countP fun t => decide (d.key t = k) := by
  have hperm : ((l.filter fun t => decide (d.key t = k)).map d.pair).Perm (toI qs) := by
    refine (List.perm_ext_iff_of_nodup ?_ hkq.2.1.nodup).2 fun p => ?_
    · refine List.pairwise_map.2 (List.Pairwise.imp_of_mem (R := fun a b => a ≠ b) ?_ (hl.filter _))
      intro a b ha hb hab e
      have e1 : d.key a = k := by simpa using (List.mem_filter.1 ha).2
      have e2 : d.key b = k := by simpa using (List.mem_filter.1 hb).2
      refine hab ?_
      cases d <;> simp only [Order.key, Order.pair, Order.positions, Triple.at, Prod.mk.injEq] at e e1 e2 <;> cases a <;> cases b <;>
        simp only [Triple.mk.injEq] at * <;> omega
    · have hP := h.pairsOf hkq p
      rw [hP, List.mem_map]
      constructor
      · rintro ⟨a, ha, e⟩
        obtain ⟨h1, h2⟩ := List.mem_filter.1 ha
        exact ⟨a, (hm a).1 h1, by rw [hekk]; simpa using h2, e⟩
      · rintro ⟨a, ha, e1, e2⟩
        exact ⟨a, List.mem_filter.2 ⟨(hm a).2 ha, by simpa using e1.trans hekk⟩, e2⟩
  have := hperm.length_eq
  rw [List.length_map] at this
  rw [List.countP_eq_length_filter, this]
  simp [toI]

/-- The number of elements of an entry is the number of triples with the key, in the permutations without skipped tables. -/
theorem _root_.Trident.Load.Config.Ok.nel (h : c.Ok g) (d : Order) (hp : permsOf c.nindices d.idx = true) (hs : d.idx < 3 ∨ c.canSkip = false)
    {l : List Triple} (hl : l.Nodup) (hm : ∀ t, t ∈ l ↔ t ∈ g.map T3.triple) (k : Int) :
    ((c.counts g).nel k d.idx).getD 0 = l.countP fun t => decide (d.key t = k) := by
  obtain ⟨t1, t2, t3⟩ := h.tree_spec
  have hnel : (c.counts g).nel k d.idx = ((c.tree g).find? fun e => (e.1 : Int) = k).bind fun e => (rec? e.1 (c.ins g d.idx).tree).map (·.n) := by
    show ((c.tree g).find? fun e => (e.1 : Int) = k).bind _ = _
    cases hf : (c.tree g).find? fun e => (e.1 : Int) = k with
    | none => rfl
    | some x =>
      simp only [Option.bind_some]
      rw [t3 x (List.mem_of_find?_eq_some hf)]
  have hload := h.load d.idx
  have hsort := h.mok.sorted d.idx
  have hnoskip : ∀ ps, ¬ (c.params d.idx).skips ps := by
    rintro ps ⟨a, b, -⟩
    simp only [Config.params, Bool.and_eq_true, decide_eq_true_eq] at a b
    rcases hs with hs | hs
    · omega
    · rw [hs] at b; simp at b
  by_cases hex : ∃ t ∈ g, d.key t.triple = k
  · obtain ⟨t, ht, hk⟩ := hex
    obtain ⟨ps, hkp, hq⟩ := hload.2.2.1 _ (h.mem_rows.2 ⟨t, ht, rfl⟩)
    obtain ⟨e, he, hek⟩ := hq (hnoskip ps)
    rw [← ins_pos hp] at he
    obtain ⟨x, hx, hxk⟩ := List.mem_map.1 ((t2 e.key).2 ⟨d.idx, e, he, rfl⟩)
    have hk' : (x.1 : Int) = k := by
      rw [← hk, ← permRow_key, ← hek, hxk]
    rw [hnel, (find_key t1).2 ⟨hx, hk'⟩, Option.bind_some, (rec_some hsort).2 ⟨he, hxk.symm⟩]
    simp only [Option.map_some, Option.getD_some]
    have he' := he
    rw [ins_pos hp] at he'
    obtain ⟨qs, hkq, -, hn, -⟩ := hload.2.1 e he'
    rw [hn]
    have hekk : (e.key : Int) = k := by rw [hek, permRow_key, hk]
    exact keyPairs_length h hl hm hkq hekk
  · have h0 : l.countP (fun t => decide (d.key t = k)) = 0 := by
      refine List.countP_eq_zero.2 fun t ht => ?_
      simp only [decide_eq_true_eq]
      intro hk
      obtain ⟨x, hx, rfl⟩ := List.mem_map.1 ((hm t).1 ht)
      exact hex ⟨x, hx, hk⟩
    rw [h0, hnel]
    cases hf : (c.tree g).find? fun e => (e.1 : Int) = k with
    | none => rfl
    | some x =>
      obtain ⟨hx, hxk⟩ := (find_key t1).1 hf
      rw [Option.bind_some]
      cases hr : rec? x.1 (c.ins g d.idx).tree with
      | none => rfl
      | some e =>
        obtain ⟨he, hek⟩ := (rec_some hsort).1 hr
        rw [ins_pos hp] at he
        obtain ⟨qs, hkq, -⟩ := hload.2.1 e he
        obtain ⟨p, hpq⟩ := List.exists_mem_of_ne_nil _ hkq.1
        obtain ⟨t, ht, e'⟩ := h.mem_rows.1 ((hkq.2.2 p).1 hpq)
        refine absurd ⟨t, ht, ?_⟩ hex
        rw [← permRow_key, e']
        simp only
        omega

end Trident.Upd
