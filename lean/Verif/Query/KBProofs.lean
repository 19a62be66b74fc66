import Verif.Query.KB
import Verif.Props.Perm
import Verif.Props.Reverse
/-! Helper proofs for queries on a stored graph (no property statements here, except `Loaded`). -/
namespace Trident
open Strat

/-- The table at `e` holds the pairs `ps`: it is not aggregated, and the bytes are what the writer of its
layout produces for them. -/
def KB.Holds (kb : KB) (e : Coord) (ps : List Pair) : Prop :=
  ∃ L thr l, decode e.strat = some L ∧ isAggregated e.strat = false ∧ Readable L l ∧ l ≠ [] ∧ SortedS (toI l) ∧
    Placed kb.mem e.start (L.encode thr l) ∧ e.stop = e.start + (L.encode thr l).length ∧ ps = toI l

/-- `ps` are the pairs of key `k` in order `d`. -/
def PairsOf (g : List Triple) (d : Order) (k : Int) (ps : List Pair) : Prop :=
  ∀ p, p ∈ ps ↔ ∃ t ∈ g, d.key t = k ∧ d.pair t = p

/-- `kb` is a stored graph with the triples `g`: every table registered for an order holds the pairs of its key, orders 0-2 that
are present have a table for every key, and orders 3-5 may lack tables (they are rebuilt from the partner
order). -/
structure Loaded (kb : KB) (g : List Triple) : Prop where
  keys : ∀ t ∈ g, ∀ x, 0 ≤ t.at x
  partner : ∀ i, i ≥ 3 → kb.present i = true → kb.present (i - 3) = true
  tables : ∀ (d : Order) k cs e, kb.coords k = some cs → cs d.idx = some e → ∃ ps, kb.Holds e ps ∧ PairsOf g d k ps
  complete : ∀ (d : Order), d.idx < 3 → kb.present d.idx = true → ∀ t ∈ g,
    ∃ cs e, kb.coords (d.key t) = some cs ∧ cs d.idx = some e
  files : ∀ (d : Order), match kb.files d.idx with
    | none => ∀ k cs, kb.coords k = some cs → cs d.idx = none
    | some l => (l.map (·.1)).Pairwise (· < ·) ∧
        ∀ k e, (k, e) ∈ l ↔ ∃ cs, kb.coords k = some cs ∧ cs d.idx = some e

theorem yields_congr {σ α} {I : Itr σ α} {s s' : σ} {l} (h : I.hasNext s = I.hasNext s') (hy : Yields I s' l) :
    Yields I s l := by
  cases hy with
  | done h1 => exact .done (by rw [h]; exact h1)
  | step h1 h2 =>
    rw [← h] at h1 h2 ⊢
    exact .step h1 h2

theorem optOf_argOfPos {v : Option Int} (h : ∀ x ∈ v, 0 ≤ x) : optOf (argOfPos v) = v := by
  cases v with
  | none => rfl
  | some x =>
    have := h x rfl
    show (if x = -1 then none else some x) = some x
    exact if_neg (by omega)

theorem sortedS_ext {l l' : List Pair} (h : SortedS l) (h' : SortedS l') (hm : ∀ p, p ∈ l ↔ p ∈ l') : l = l' := by
  induction l generalizing l' with
  | nil =>
    cases l' with
    | nil => rfl
    | cons a _ => exact absurd ((hm a).2 (by simp)) (by simp)
  | cons a l ih =>
    cases l' with
    | nil => exact absurd ((hm a).1 (by simp)) (by simp)
    | cons b l' =>
      rw [SortedS, List.pairwise_cons] at h h'
      have hab : a = b := by
        have h1 := (hm a).1 (by simp)
        have h2 := (hm b).2 (by simp)
        rcases List.mem_cons.1 h1 with e | e
        · exact e
        · rcases List.mem_cons.1 h2 with e' | e'
          · exact e'.symm
          · have x := h'.1 a e
            have y := h.1 b e'
            simp only [Pair.lt] at x y
            omega
      subst hab
      rw [ih h.2 h'.2 fun p => ?_]
      have := hm p
      rw [List.mem_cons, List.mem_cons] at this
      constructor
      · intro hp
        rcases this.1 (.inr hp) with e | e
        · subst e; have := h.1 _ hp; simp only [Pair.lt] at this; omega
        · exact e
      · intro hp
        rcases this.2 (.inr hp) with e | e
        · subst e; have := h'.1 _ hp; simp only [Pair.lt] at this; omega
        · exact e

theorem exists_sortedS (l : List Pair) : ∃ out, SortedS out ∧ ∀ p, p ∈ out ↔ p ∈ l := by
  have : ∃ l' : List Pair, l'.Nodup ∧ ∀ p, p ∈ l' ↔ p ∈ l := by
    induction l with
    | nil => exact ⟨[], by simp, by simp⟩
    | cons a l ih =>
      obtain ⟨l', h1, h2⟩ := ih
      by_cases h : a ∈ l'
      · refine ⟨l', h1, fun p => ?_⟩
        rw [List.mem_cons, ← h2]
        exact ⟨.inr, fun hp => hp.elim (fun e => by rw [e]; exact h) id⟩
      · refine ⟨a :: l', List.nodup_cons.2 ⟨h, h1⟩, fun p => ?_⟩
        rw [List.mem_cons, List.mem_cons, h2]
  obtain ⟨l', h1, h2⟩ := this
  obtain ⟨out, h3, h4⟩ := exists_sorted_perm l'
  exact ⟨out, h3.strict (h4.nodup_iff.2 h1), fun p => by rw [h4.mem_iff, h2]⟩

variable {kb : KB} {g : List Triple} {E : Env}

theorem KB.Holds.nonneg {e ps} (h : kb.Holds e ps) : ∀ p ∈ ps, 0 ≤ p.1 ∧ 0 ≤ p.2 := by
  obtain ⟨L, thr, l, -, -, -, -, -, -, -, rfl⟩ := h
  exact fun p hp => ⟨toI_nonneg1 hp, toI_nonneg p hp⟩

theorem KB.Holds.sorted {e ps} (h : kb.Holds e ps) : SortedS ps := by
  obtain ⟨L, thr, l, -, -, -, -, h, -, -, rfl⟩ := h
  exact h

theorem KB.Holds.ne_nil {e ps} (h : kb.Holds e ps) : ps ≠ [] := by
  obtain ⟨L, thr, l, -, -, -, h, -, -, -, rfl⟩ := h
  cases l with
  | nil => exact absurd rfl h
  | cons a l => simp [toI]

theorem KB.Holds.returns {e ps} (h : kb.Holds e ps) (v1 v2 : Int) :
    (kb.openTab e v1 v2).Returns (matching ps (optOf v1) (optOf v2)) := by
  obtain ⟨L, thr, l, h1, -, h2, h3, h4, h5, h6, rfl⟩ := h
  unfold KB.openTab
  rw [h1, h6]
  exact C08_any_layout_partial L thr l kb.mem e.start h2 h4 h3 h5 _ _

theorem matching_none (ps : List Pair) (c : Option Int) : matching ps none c = ps := by
  rw [matching, List.filter_eq_self]; simp

theorem mem_matching {ps : List Pair} {c1 c2 : Option Int} (hc : c1 = none → c2 = none) {p : Pair} :
    p ∈ matching ps c1 c2 ↔ p ∈ ps ∧ (∀ v ∈ c1, p.1 = v) ∧ ∀ v ∈ c2, p.2 = v := by
  unfold matching
  rw [List.mem_filter, decide_eq_true_eq]
  cases c1 with
  | none => have := hc rfl; subst this; simp
  | some a =>
    cases c2 with
    | none => simp [eq_comm]
    | some b => simp [eq_comm]

theorem PairsOf.swap {d d' : Order} {k ps} (h : PairsOf g d k ps) (hk : d'.key = d.key)
    (hp : ∀ t, d'.pair t = ((d.pair t).2, (d.pair t).1)) : PairsOf g d' k (ps.map fun p => (p.2, p.1)) := by
  intro p
  rw [List.mem_map]
  constructor
  · rintro ⟨q, hq, rfl⟩
    obtain ⟨t, h1, h2, h3⟩ := (h q).1 hq
    exact ⟨t, h1, by rw [hk]; exact h2, by rw [hp, h3]⟩
  · rintro ⟨t, h1, h2, h3⟩
    refine ⟨d.pair t, (h _).2 ⟨t, h1, by rw [← hk]; exact h2, rfl⟩, ?_⟩
    rw [← h3, hp]

theorem Order.exists_partner (d : Order) (h : d.idx ≥ 3) : ∃ d' : Order, d'.idx = d.idx - 3 ∧ d.key = d'.key ∧
    ∀ t, d.pair t = ((d'.pair t).2, (d'.pair t).1) := by
  cases d with
  | spo => simp [Order.idx] at h
  | ops => simp [Order.idx] at h
  | pos => simp [Order.idx] at h
  | sop => exact ⟨.spo, rfl, rfl, fun _ => rfl⟩
  | osp => exact ⟨.ops, rfl, rfl, fun _ => rfl⟩
  | pso => exact ⟨.pos, rfl, rfl, fun _ => rfl⟩

theorem natOpt {v : Option Int} (h : ∀ x ∈ v, 0 ≤ x) : ∃ c : Option Nat, v = c.map Int.ofNat ∧ argOfPos v = argOf c := by
  cases v with
  | none => exact ⟨none, rfl, rfl⟩
  | some x =>
    have hx := h x rfl
    refine ⟨some x.toNat, ?_, ?_⟩
    · simp only [Option.map_some, Int.ofNat_eq_natCast, Int.toNat_of_nonneg hx]
    · simp only [argOfPos, argOf, Option.getD_some, Int.toNat_of_nonneg hx]

theorem pairsOf_length {d : Order} {k ps} (h : PairsOf g d k ps) (hs : SortedS ps) : ps.length ≤ g.length := by
  have hn : ps.Nodup := hs.imp fun h e => by subst e; simp only [Pair.lt] at h; omega
  have : ∀ {l l' : List Pair}, l.Nodup → (∀ x ∈ l, x ∈ l') → l.length ≤ l'.length := by
    intro l
    induction l with
    | nil => intros; simp
    | cons a l ih =>
      intro l' h hs
      rw [List.nodup_cons] at h
      have := ih (l' := l'.erase a) h.2 (fun x hx => by
        have hne : x ≠ a := fun e => h.1 (by rw [← e]; exact hx)
        rw [List.mem_erase_of_ne hne]; exact hs x (by simp [hx]))
      have ha := hs a (by simp)
      rw [List.length_erase_of_mem ha] at this
      have := List.length_pos_of_mem ha
      simp only [List.length_cons]
      omega
  have := this (l' := g.map d.pair) hn (fun p hp => by
    obtain ⟨t, h1, -, h3⟩ := (h p).1 hp
    exact List.mem_map.2 ⟨t, h1, h3⟩)
  simpa using this

/-- `get` on a key with coordinates. -/
theorem Loaded.get_returns (h : Loaded kb g) (hE : SortsPairs E.sortP) (hf : g.length < E.fuel) (d : Order)
    (hpres : kb.present d.idx = true ∨ (d.idx ≥ 3 ∧ kb.present (d.idx - 3) = true))
    {k cs} (hk : kb.coords k = some cs) (c1 c2 : Option Int) (h1 : ∀ x ∈ c1, 0 ≤ x) (h2 : ∀ x ∈ c2, 0 ≤ x)
    (hc : c1 = none → c2 = none) :
    ∃ out, (kb.get E d.idx cs (argOfPos c1) (argOfPos c2)).Returns out ∧ SortedS out ∧
      ∀ p, p ∈ out ↔ (∃ t ∈ g, d.key t = k ∧ d.pair t = p) ∧ (∀ v ∈ c1, p.1 = v) ∧ ∀ v ∈ c2, p.2 = v := by
  unfold KB.get
  cases hcs : cs d.idx with
  | some e =>
    obtain ⟨ps, g1, g2⟩ := h.tables d k cs e hk hcs
    refine ⟨_, g1.returns _ _, ?_, ?_⟩
    · exact g1.sorted.sublist List.filter_sublist
    · intro p
      rw [optOf_argOfPos h1, optOf_argOfPos h2, mem_matching hc, g2 p]
  | none =>
    simp only
    by_cases hd : d.idx ≥ 3
    · rw [if_pos hd]
      obtain ⟨d', e1, e2, e3⟩ := d.exists_partner hd
      cases hcs' : cs (d.idx - 3) with
      | some e =>
        obtain ⟨ps, g1, g2⟩ := h.tables d' k cs e hk (by rw [e1]; exact hcs')
        obtain ⟨n1, rfl, a1⟩ := natOpt h1
        obtain ⟨n2, rfl, a2⟩ := natOpt h2
        have hret := g1.returns (-1) (-1)
        rw [show optOf (-1) = none from rfl, matching_none] at hret
        have hlen := pairsOf_length g2 g1.sorted
        obtain ⟨out, o1, -, o3, o4, -⟩ := C22_reversed E.sortP hE _ ps hret g1.nonneg E.fuel (by omega) n1 n2 (by
          intro hn; subst hn
          have := hc rfl
          cases n2 with
          | none => rfl
          | some n => simp at this)
        have hnd : ps.Nodup := g1.sorted.imp fun h e => by subst e; simp only [Pair.lt] at h; omega
        refine ⟨out, ?_, o4 hnd, fun p => ?_⟩
        · simp only [a1, a2]; exact o1
        · rw [o3.mem_iff, mem_matching hc, g2.swap e2 e3 p]
      | none =>
        refine ⟨[], .done rfl, .nil, fun p => ⟨fun h => absurd h List.not_mem_nil, ?_⟩⟩
        rintro ⟨⟨t, ht, hkt, -⟩, -⟩
        have hp3 : kb.present (d.idx - 3) = true := by
          rcases hpres with hp | hp
          · exact h.partner _ hd hp
          · exact hp.2
        have hlt : d.idx - 3 < 3 := by cases d <;> simp [Order.idx]
        obtain ⟨cs', e, q1, q2⟩ := h.complete d' (by rw [e1]; exact hlt) (by rw [e1]; exact hp3) t ht
        rw [← e2, hkt, hk] at q1
        obtain rfl := Option.some.inj q1
        rw [e1, hcs'] at q2
        simp at q2
    · rw [if_neg hd]
      refine ⟨[], .done rfl, .nil, fun p => ⟨fun h => absurd h List.not_mem_nil, ?_⟩⟩
      rintro ⟨⟨t, ht, hkt, -⟩, -⟩
      obtain ⟨cs', e, q1, q2⟩ := h.complete d (by omega) (by
        rcases hpres with hp | hp
        · exact hp
        · exact absurd hp.1 hd) t ht
      rw [hkt, hk] at q1
      obtain rfl := Option.some.inj q1
      rw [hcs] at q2
      simp at q2

theorem withKey_yields {o : Obj} {k : Int} {s l} (h : Yields o.I s l) :
    Yields (o.withKey k).I s (l.map fun p => (k, p)) := by
  induction h with
  | done h => exact .done h
  | step h1 _ ih => exact .step (I := (o.withKey k).I) h1 ih

/-! ## The scan -/
namespace Scan

/-- Opening `c` and reading it gives `ps`, which is not empty. -/
def Opens (kb : KB) (c : Src) (ps : List Pair) : Prop := Yields (Src.itr kb.mem) c ps ∧ ps ≠ []

theorem yields_tab {m : Mem} {t : Tab} {l} (h : Yields (Tab.itr m) t l) : Yields (Src.itr m) (.tab t) l := by
  induction h with
  | done h => exact .done h
  | step h1 _ ih => exact .step (I := Src.itr m) (s := .tab _) h1 ih

theorem yields_arr {m : Mem} {a : List (Nat × Nat)} {s : Arr.St} {l} (h : Yields (Arr.itr a) s l) :
    Yields (Src.itr m) (.arr a s) l := by
  induction h with
  | done h => exact .done h
  | step h1 _ ih => exact .step (I := Src.itr m) (s := .arr a _) h1 ih

theorem opens_stored {e ps} (h : kb.Holds e ps) : Opens kb (openStored kb e) ps := by
  have hr := h.returns (-1) (-1)
  rw [show optOf (-1) = none from rfl, matching_none] at hr
  refine ⟨?_, h.ne_nil⟩
  obtain ⟨L, thr, l, h1, -⟩ := h
  unfold KB.openTab at hr
  unfold openStored
  rw [h1] at hr ⊢
  exact yields_tab hr

theorem opens_reversed (hE : SortsPairs E.sortP) {e ps} (h : kb.Holds e ps) (hf : ps.length < E.fuel) :
    ∃ out, Opens kb (openReversed kb E e) out ∧ SortedS out ∧ out.Perm (ps.map fun p => (p.2, p.1)) := by
  have hr := h.returns (-1) (-1)
  rw [show optOf (-1) = none from rfl, matching_none] at hr
  have hnd : ps.Nodup := h.sorted.imp fun h e => by subst e; simp only [Pair.lt] at h; omega
  obtain ⟨out, o1, -, o3, o4, -⟩ := C22_reversed E.sortP hE _ ps hr h.nonneg E.fuel hf none none (fun _ => rfl)
  rw [Option.map_none, matching_none] at o3
  have hne : out ≠ [] := by
    rintro rfl
    have := o3.length_eq
    simp only [List.length_nil, List.length_map] at this
    exact h.ne_nil (List.eq_nil_of_length_eq_zero this.symm)
  refine ⟨out, ⟨?_, hne⟩, o4 hnd, o3⟩
  have hd : drain (kb.openTab e (-1) (-1)).I E.fuel (kb.openTab e (-1) (-1)).s = ps := drain_eq hr hf
  unfold Obj.onReverse at o1
  simp only [argOf, hd] at o1
  unfold openReversed collect
  simp only [hd]
  by_cases hl : (reversed (-1) ps).length > 0
  · rw [if_pos hl] at o1
    exact yields_arr o1
  · rw [if_neg hl] at o1
    cases o1 with
    | done _ => exact absurd rfl hne
    | step h _ => simp [Obj.empty] at h

theorem yields_cur {i1 i2 key rest} (hrest : ∀ hn, Yields (itr kb E) ⟨i1, i2, none, false, hn, key⟩ rest) {c l}
    (h : Yields (Src.itr kb.mem) c l) : ∀ hn, Yields (itr kb E) ⟨i1, i2, some c, false, hn, key⟩
      (l.map (fun p => (key, p)) ++ rest) := by
  induction h with
  | @done c h =>
    intro hn
    refine yields_congr (s' := ⟨i1, i2, none, false, hn, key⟩) ?_ (hrest hn)
    show Scan.hasNext kb ⟨i1, i2, some c, false, hn, key⟩ = Scan.hasNext kb ⟨i1, i2, none, false, hn, key⟩
    simp only [hasNext, h, Bool.false_eq_true, if_false]
  | @step c l h1 h2 ih =>
    intro hn
    have hh : hasNext kb ⟨i1, i2, some c, false, hn, key⟩ =
        (true, ⟨i1, i2, some ((Src.itr kb.mem).hasNext c).2, true, true, key⟩) := by
      simp only [hasNext, h1, Bool.false_eq_true, if_false, if_true]
    have := ih true
    rw [List.map_cons, List.cons_append, yields_cons]
    change (hasNext kb ⟨i1, i2, some c, false, hn, key⟩).1 = true ∧
      (itr kb E).val (next kb E (hasNext kb ⟨i1, i2, some c, false, hn, key⟩).2) = _ ∧
      Yields (itr kb E) (next kb E (hasNext kb ⟨i1, i2, some c, false, hn, key⟩).2) _
    rw [hh]
    exact ⟨rfl, rfl, this⟩

theorem yields_open {i1 i2 key rest} (hrest : ∀ hn, Yields (itr kb E) ⟨i1, i2, none, false, hn, key⟩ rest) {c ps}
    (h : Opens kb c ps) {s : St} {s1 : St} (hh : hasNext kb s = (true, s1))
    (hn : next kb E s1 = ⟨i1, i2, some (first kb c), false, s1.hn, key⟩) :
    Yields (itr kb E) s (ps.map (fun p => (key, p)) ++ rest) := by
  obtain ⟨h1, h2⟩ := h
  cases h1 with
  | done _ => exact absurd rfl h2
  | @step _ l h3 h4 =>
    have := yields_cur (E := E) hrest h4 s1.hn
    rw [List.map_cons, List.cons_append, yields_cons]
    change (hasNext kb s).1 = true ∧ (itr kb E).val (next kb E (hasNext kb s).2) = _ ∧
      Yields (itr kb E) (next kb E (hasNext kb s).2) _
    rw [hh]
    dsimp only
    rw [hn]
    exact ⟨rfl, rfl, this⟩

/-- The rows of a list of keys. -/
def rows (ps : Int → List Pair) (l : List (Int × Coord)) : List Row3 :=
  l.flatMap fun e => (ps e.1).map fun p => (e.1, p)

theorem yields_one {ps : Int → List Pair} {l : List (Int × Coord)}
    (h : ∀ e ∈ l, Opens kb (openStored kb e.2) (ps e.1)) :
    ∀ c key hn, Yields (itr kb E) ⟨some ⟨c, l⟩, none, none, false, hn, key⟩ (rows ps l) := by
  induction l with
  | nil => intro c key hn; exact .done rfl
  | cons e l ih =>
    intro c key hn
    rw [rows, List.flatMap_cons]
    refine yields_open (i1 := some ⟨e, l⟩) (i2 := none) (fun hn => ih (fun x hx => h x (by simp [hx])) e e.1 hn)
      (h e (by simp)) (s1 := ⟨some ⟨e, l⟩, none, none, true, true, key⟩) rfl rfl

/-- How `itr1` stands when the remaining keys of `itr2` are `l2` and the tables still to come are `l1`. -/
def Inv (i1 : Option TermSt) (l1 l2 : List (Int × Coord)) : Prop :=
  (i1 = none ∧ l1 = []) ∨ (∃ e r, i1 = some ⟨e, r⟩ ∧ l1 = e :: r) ∨
    (∃ e, i1 = some ⟨e, l1⟩ ∧ ∀ x ∈ l2, e.1 < x.1)

theorem yields_two {ps : Int → List Pair} {l2 : List (Int × Coord)} :
    ∀ {l1 : List (Int × Coord)} {i1}, Inv i1 l1 l2 → (l1.map (·.1)).Pairwise (· < ·) → (l2.map (·.1)).Pairwise (· < ·) →
    (∀ e ∈ l1, e.1 ∈ l2.map (·.1)) → (∀ e ∈ l1, Opens kb (openStored kb e.2) (ps e.1)) →
    (∀ e ∈ l2, e.1 ∉ l1.map (·.1) → Opens kb (openReversed kb E e.2) (ps e.1)) →
    ∀ c key hn, Yields (itr kb E) ⟨i1, some ⟨c, l2⟩, none, false, hn, key⟩ (rows ps l2) := by
  induction l2 with
  | nil => intros; exact .done rfl
  | cons e l2 ih =>
    intro l1 i1 hinv hs1 hs2 hsub h1 h2 c key hn
    rw [List.map_cons, List.pairwise_cons] at hs2
    rw [rows, List.flatMap_cons]
    -- the position of `itr1` after the key has moved
    have hmv : ∃ i1', hasNext kb ⟨i1, some ⟨c, e :: l2⟩, none, false, hn, key⟩ =
        (true, ⟨i1', some ⟨e, l2⟩, none, true, true, key⟩) ∧
        ((i1' = none ∧ l1 = []) ∨ ∃ f r, i1' = some ⟨f, r⟩ ∧ l1 = f :: r) := by
      rcases hinv with ⟨rfl, rfl⟩ | ⟨f, r, rfl, rfl⟩ | ⟨f, rfl, hlt⟩
      · exact ⟨none, rfl, .inl ⟨rfl, rfl⟩⟩
      · refine ⟨some ⟨f, r⟩, ?_, .inr ⟨f, r, rfl, rfl⟩⟩
        have : ¬ f.1 < e.1 := by
          have := hsub f (by simp)
          rw [List.map_cons, List.mem_cons] at this
          rcases this with h | h
          · omega
          · have := hs2.1 _ h; omega
        simp only [hasNext, moveKey, Bool.false_eq_true, if_false, if_neg this]
      · have hfe := hlt e (by simp)
        cases l1 with
        | nil => exact ⟨none, by simp only [hasNext, moveKey, Bool.false_eq_true, if_false, if_pos hfe], .inl ⟨rfl, rfl⟩⟩
        | cons f' r' =>
          exact ⟨some ⟨f', r'⟩, by simp only [hasNext, moveKey, Bool.false_eq_true, if_false, if_pos hfe],
            .inr ⟨f', r', rfl, rfl⟩⟩
    obtain ⟨i1', hh, hi⟩ := hmv
    rcases hi with ⟨rfl, rfl⟩ | ⟨f, r, rfl, rfl⟩
    · refine yields_open (i1 := none) (i2 := some ⟨e, l2⟩) (fun hn => ?_) (h2 e (by simp) (by simp)) hh rfl
      exact ih (.inl ⟨rfl, rfl⟩) .nil hs2.2 (by simp) (by simp) (fun x hx => h2 x (by simp [hx])) e e.1 hn
    · rw [List.map_cons, List.pairwise_cons] at hs1
      by_cases hef : e.1 = f.1
      · have hsub' : ∀ x ∈ r, x.1 ∈ l2.map (·.1) := by
          intro x hx
          have := hsub x (by simp [hx])
          rw [List.map_cons, List.mem_cons] at this
          rcases this with h | h
          · have := hs1.1 x.1 (List.mem_map.2 ⟨x, hx, rfl⟩); omega
          · exact h
        have hop := h1 f (by simp)
        rw [hef]
        refine yields_open (i1 := some ⟨f, r⟩) (i2 := some ⟨e, l2⟩) (fun hn => ?_) hop hh ?_
        · refine ih (l1 := r) (.inr (.inr ⟨f, rfl, fun x hx => ?_⟩)) hs1.2 hs2.2 hsub' (fun x hx => h1 x (by simp [hx])) ?_ e f.1 hn
          · rw [← hef]; exact hs2.1 _ (List.mem_map.2 ⟨x, hx, rfl⟩)
          · intro x hx hnx
            refine h2 x (by simp [hx]) ?_
            rw [List.map_cons, List.mem_cons]
            rintro (h | h)
            · have := hs2.1 _ (List.mem_map.2 ⟨x, hx, rfl⟩); omega
            · exact hnx h
        · simp only [next, ne_eq, hef, not_true_eq_false, if_false]
      · have hfe : f.1 ∈ l2.map (·.1) := by
          have := hsub f (by simp)
          rw [List.map_cons, List.mem_cons] at this
          exact this.resolve_left fun h => hef h.symm
        have hlt := hs2.1 _ hfe
        have hnot : e.1 ∉ (f :: r).map (·.1) := by
          rw [List.map_cons, List.mem_cons]
          rintro (h | h)
          · exact hef h
          · have := hs1.1 _ h; omega
        refine yields_open (i1 := some ⟨f, r⟩) (i2 := some ⟨e, l2⟩) (fun hn => ?_) (h2 e (by simp) hnot) hh ?_
        · refine ih (l1 := f :: r) (.inr (.inl ⟨f, r, rfl, rfl⟩)) (by rw [List.map_cons, List.pairwise_cons]; exact hs1) hs2.2 ?_ h1
            (fun x hx => h2 x (by simp [hx])) e e.1 hn
          intro x hx
          rcases List.mem_cons.1 hx with rfl | hx
          · exact hfe
          · have := hsub x (by simp [hx])
            rw [List.map_cons, List.mem_cons] at this
            rcases this with h | h
            · have := hs1.1 _ (List.mem_map.2 ⟨x, hx, rfl⟩); omega
            · exact h
        · simp only [next, ne_eq, hef, not_false_eq_true, if_true]

theorem rows_sorted {ps : Int → List Pair} {l : List (Int × Coord)} (hl : (l.map (·.1)).Pairwise (· < ·))
    (hp : ∀ e ∈ l, SortedS (ps e.1)) : (rows ps l).Pairwise Row3.lt := by
  induction l with
  | nil => exact .nil
  | cons e l ih =>
    rw [List.map_cons, List.pairwise_cons] at hl
    rw [rows, List.flatMap_cons, List.pairwise_append]
    refine ⟨?_, ih hl.2 (fun x hx => hp x (by simp [hx])), ?_⟩
    · rw [List.pairwise_map]
      exact (hp e (by simp)).imp fun h => .inr ⟨rfl, h⟩
    · intro a ha b hb
      obtain ⟨p, -, rfl⟩ := List.mem_map.1 ha
      obtain ⟨f, hf, hb⟩ := List.mem_flatMap.1 hb
      obtain ⟨q, -, rfl⟩ := List.mem_map.1 hb
      exact .inl (hl.1 _ (List.mem_map.2 ⟨f, hf, rfl⟩))

theorem mem_rows {ps : Int → List Pair} {l : List (Int × Coord)} {r : Row3} :
    r ∈ rows ps l ↔ r.1 ∈ l.map (·.1) ∧ r.2 ∈ ps r.1 := by
  unfold rows
  rw [List.mem_flatMap, List.mem_map]
  constructor
  · rintro ⟨e, he, hr⟩
    obtain ⟨p, hp, rfl⟩ := List.mem_map.1 hr
    exact ⟨⟨e, he, rfl⟩, hp⟩
  · rintro ⟨⟨e, he, h1⟩, h2⟩
    exact ⟨e, he, List.mem_map.2 ⟨r.2, by rw [h1]; exact h2, by rw [h1]⟩⟩

end Scan

/-- The scan of an order, on a graph that is not empty. -/
theorem Loaded.scan (h : Loaded kb g) (hE : SortsPairs E.sortP) (hf : g.length < E.fuel) (d : Order)
    (hpres : kb.present d.idx = true ∨ (d.idx ≥ 3 ∧ kb.present (d.idx - 3) = true)) (hg : g ≠ []) :
    ∃ s out, Scan.init kb d.idx = some s ∧ Yields (Scan.itr kb E) s out ∧ out.Pairwise Row3.lt ∧
      ∀ r, r ∈ out ↔ ∃ t ∈ g, d.row t = r := by
  obtain ⟨t0, ht0⟩ : ∃ t, t ∈ g := by
    cases g with
    | nil => exact absurd rfl hg
    | cons t _ => exact ⟨t, by simp⟩
  -- the pairs of a key
  have hps : ∀ k, ∃ ps, SortedS ps ∧ PairsOf g d k ps := by
    intro k
    obtain ⟨out, h1, h2⟩ := exists_sortedS ((g.filter fun t => d.key t = k).map d.pair)
    refine ⟨out, h1, fun p => ?_⟩
    rw [h2, List.mem_map]
    constructor
    · rintro ⟨t, ht, rfl⟩
      rw [List.mem_filter] at ht
      exact ⟨t, ht.1, by simpa using ht.2, rfl⟩
    · rintro ⟨t, h1, h2, h3⟩
      exact ⟨t, List.mem_filter.2 ⟨h1, by simpa using h2⟩, h3⟩
  have uniq : ∀ {k ps ps'}, SortedS ps → PairsOf g d k ps → SortedS ps' → PairsOf g d k ps' → ps = ps' := by
    intro k ps ps' a b a' b'
    exact sortedS_ext a a' fun p => (b p).trans (b' p).symm
  let P : Int → List Pair := fun k => Classical.choose (hps k)
  have hP : ∀ k, SortedS (P k) ∧ PairsOf g d k (P k) := fun k => Classical.choose_spec (hps k)
  have hmem : ∀ (l : List (Int × Coord)), (∀ t ∈ g, d.key t ∈ l.map (·.1)) → ∀ r, r ∈ Scan.rows P l ↔ ∃ t ∈ g, d.row t = r := by
    intro l hl r
    rw [Scan.mem_rows, (hP r.1).2 r.2]
    constructor
    · rintro ⟨-, t, h1, h2, h3⟩
      exact ⟨t, h1, Prod.ext h2 h3⟩
    · rintro ⟨t, h1, rfl⟩
      exact ⟨hl t h1, t, h1, rfl, rfl⟩
  have hstored : ∀ l, kb.files d.idx = some l → ∀ e ∈ l, Scan.Opens kb (Scan.openStored kb e.2) (P e.1) := by
    intro l hl e he
    have := h.files d
    rw [hl] at this
    obtain ⟨cs, q1, q2⟩ := (this.2 e.1 e.2).1 he
    obtain ⟨ps, g1, g2⟩ := h.tables d _ _ _ q1 q2
    rw [uniq (hP e.1).1 (hP e.1).2 g1.sorted g2]
    exact Scan.opens_stored g1
  by_cases hd : d.idx ≥ 3
  · obtain ⟨d', e1, e2, e3⟩ := d.exists_partner hd
    have hlt : d'.idx < 3 := by rw [e1]; cases d <;> simp [Order.idx]
    have hp3 : kb.present d'.idx = true := by
      rw [e1]
      rcases hpres with hp | hp
      · exact h.partner _ hd hp
      · exact hp.2
    have hfd' := h.files d'
    cases hfl : kb.files (d.idx - 3) with
    | none =>
      rw [e1, hfl] at hfd'
      obtain ⟨cs, e, q1, q2⟩ := h.complete d' hlt hp3 t0 ht0
      rw [e1] at q2
      rw [hfd' _ _ q1] at q2
      simp at q2
    | some l2 =>
      rw [e1, hfl] at hfd'
      obtain ⟨f1, f2⟩ := hfd'
      have hall : ∀ t ∈ g, d.key t ∈ l2.map (·.1) := by
        intro t ht
        obtain ⟨cs, e, q1, q2⟩ := h.complete d' hlt hp3 t ht
        rw [e2]
        exact List.mem_map.2 ⟨_, (f2 _ _).2 ⟨cs, q1, by rw [← e1]; exact q2⟩, rfl⟩
      have hrev : ∀ e ∈ l2, Scan.Opens kb (Scan.openReversed kb E e.2) (P e.1) := by
        intro e he
        obtain ⟨cs, q1, q2⟩ := (f2 e.1 e.2).1 he
        obtain ⟨ps, g1, g2⟩ := h.tables d' _ _ _ q1 (by rw [e1]; exact q2)
        have hlen := pairsOf_length g2 g1.sorted
        obtain ⟨out, o1, o2, o3⟩ := Scan.opens_reversed hE g1 (by omega)
        rw [uniq (hP e.1).1 (hP e.1).2 o2 (fun p => by rw [o3.mem_iff]; exact g2.swap e2 e3 p)]
        exact o1
      have hsub : ∀ l1, kb.files d.idx = some l1 → ∀ e ∈ l1, e.1 ∈ l2.map (·.1) := by
        intro l1 hl e he
        have := h.files d
        rw [hl] at this
        obtain ⟨cs, q1, q2⟩ := (this.2 e.1 e.2).1 he
        obtain ⟨ps, g1, g2⟩ := h.tables d _ _ _ q1 q2
        cases ps with
        | nil => exact absurd rfl g1.ne_nil
        | cons p ps =>
          obtain ⟨t, ht, hk, -⟩ := (g2 p).1 (by simp)
          rw [← hk]; exact hall t ht
      unfold Scan.init
      rw [if_pos (by omega), hfl]
      refine ⟨_, Scan.rows P l2, rfl, ?_, Scan.rows_sorted f1 (fun e _ => (hP e.1).1), hmem l2 hall⟩
      cases hf1 : kb.files d.idx with
      | none =>
        exact Scan.yields_two (l1 := []) (.inl ⟨rfl, rfl⟩) .nil f1 (by simp) (by simp) (fun e he _ => hrev e he) _ _ _
      | some l1 =>
        have hfd := h.files d
        rw [hf1] at hfd
        cases l1 with
        | nil =>
          exact Scan.yields_two (l1 := []) (.inl ⟨rfl, rfl⟩) .nil f1 (by simp) (by simp) (fun e he _ => hrev e he) _ _ _
        | cons e r =>
          exact Scan.yields_two (l1 := e :: r) (.inr (.inl ⟨e, r, rfl, rfl⟩)) hfd.1 f1 (hsub _ hf1) (hstored _ hf1)
            (fun e he _ => hrev e he) _ _ _
  · have hlt : d.idx < 3 := by omega
    have hp : kb.present d.idx = true := by
      rcases hpres with hp | hp
      · exact hp
      · exact absurd hp.1 hd
    have hfd := h.files d
    cases hfl : kb.files d.idx with
    | none =>
      rw [hfl] at hfd
      obtain ⟨cs, e, q1, q2⟩ := h.complete d hlt hp t0 ht0
      rw [hfd _ _ q1] at q2
      simp at q2
    | some l =>
      rw [hfl] at hfd
      have hall : ∀ t ∈ g, d.key t ∈ l.map (·.1) := by
        intro t ht
        obtain ⟨cs, e, q1, q2⟩ := h.complete d hlt hp t ht
        exact List.mem_map.2 ⟨_, (hfd.2 _ _).2 ⟨cs, q1, q2⟩, rfl⟩
      unfold Scan.init
      rw [if_neg (by omega), hfl]
      exact ⟨_, Scan.rows P l, rfl, Scan.yields_one (hstored l hfl) _ _ _, Scan.rows_sorted hfd.1 (fun e _ => (hP e.1).1),
        hmem l hall⟩

end Trident
