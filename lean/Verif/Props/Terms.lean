import Verif.Sparql.FullyScanProofs
import Verif.Props.Card
import Verif.Props.ReOrder
/-!
# C19: the terms of a stored graph
-/
namespace Trident
open Load Upd

/-- **C19** on a stored graph: in an order that can be read, the keys are listed once, in increasing order, with the number of their triples.  `ts` are the triples, each once. -/
theorem C19_stored_partial (c : Config) (g : List T3) (h : c.Ok g) (hg : g ≠ []) {m : Mem} {M : Nat → Maps} (hM : ∀ i, i < 6 → Mapped m (M i) (c.ins g i).store.files)
    (E : Env) (srt : List Int → List Int) (ts : List Triple) (hn : ts.Nodup) (hm : ∀ t, t ∈ ts ↔ t ∈ g.map T3.triple) (d : Order) (hd : (c.open' g m M).Reads d) :
    ∃ o out, (c.open' g m M).terms E srt (c.counts g).nel d.idx = some o ∧ o.Returns out ∧ IsTermList (ts.map d.key) out := by
  have hl := h.loaded hM
  obtain ⟨d', e1, e2, e3⟩ : ∃ d' : Order, d'.idx = baseOf d.idx ∧ d'.idx < 3 ∧ ∀ t, d'.key t = d.key t := by
    by_cases h3 : d.idx ≥ 3
    · obtain ⟨d', a1, a2, -⟩ := d.exists_partner h3
      exact ⟨d', by rw [a1, baseOf, if_pos (by omega)], by rw [a1]; cases d <;> simp [Order.idx], fun t => by rw [a2]⟩
    · exact ⟨d, by rw [baseOf, if_neg (by omega)], by omega, fun _ => rfl⟩
  have hp : (c.open' g m M).present d'.idx = true := by
    rw [e1]
    unfold baseOf
    split
    · rcases hd with hp | hp
      · exact hl.partner _ (by omega) hp
      · exact hp.2
    · rcases hd with hp | hp
      · exact hp
      · omega
  obtain ⟨t0, ht0⟩ := List.exists_mem_of_ne_nil g hg
  have hf := hl.files d'
  cases hfl : (c.open' g m M).files d'.idx with
  | none =>
    rw [hfl] at hf
    obtain ⟨cs, e, q1, q2⟩ := hl.complete d' e2 hp _ (List.mem_map.2 ⟨t0, ht0, rfl⟩)
    rw [hf _ _ q1] at q2
    cases q2
  | some l =>
    rw [hfl] at hf
    obtain ⟨f1, f2⟩ := hf
    refine ⟨_, _, by unfold KB.terms KB.storedTerms; rw [← e1, hfl]; rfl, keys_returns _, ?_, ?_, ?_⟩
    · rw [List.map_map]; exact f1
    · intro k
      rw [List.map_map]
      constructor
      · intro hk
        obtain ⟨e, he, rfl⟩ := List.mem_map.1 hk
        obtain ⟨cs, q1, q2⟩ := (f2 e.1 e.2).1 he
        obtain ⟨ps, p1, p2⟩ := hl.tables d' _ _ _ q1 q2
        cases ps with
        | nil => exact absurd rfl p1.ne_nil
        | cons p ps =>
          obtain ⟨t, ht, hk, -⟩ := (p2 p).1 (by simp)
          exact List.mem_map.2 ⟨t, (hm t).2 ht, by rw [← e3]; exact hk⟩
      · intro hk
        obtain ⟨t, ht, rfl⟩ := List.mem_map.1 hk
        obtain ⟨cs, e, q1, q2⟩ := hl.complete d' e2 hp t ((hm t).1 ht)
        exact List.mem_map.2 ⟨(d'.key t, e), (f2 _ _).2 ⟨cs, q1, q2⟩, e3 t⟩
    · intro q hq
      obtain ⟨e, he, rfl⟩ := List.mem_map.1 hq
      show (((((c.counts g).nel e.1 d'.idx).getD 0 : Nat) : Int)) = _
      rw [h.nel d' hp (.inl e2) hn hm, List.count_eq_countP, List.countP_map]
      congr 1
      refine List.countP_congr fun t _ => ?_
      show decide (d'.key t = e.1) = true ↔ (d.key t == e.1) = true
      rw [e3]
      simp

/-- All orders can be read: the list is right in each of them. -/
theorem answersT_stored (c : Config) (g : List T3) (h : c.Ok g) (hg : g ≠ []) {m : Mem} {M : Nat → Maps} (hM : ∀ i, i < 6 → Mapped m (M i) (c.ins g i).store.files)
    (E : Env) (srt : List Int → List Int) {ts : List Triple} (hn : ts.Nodup) (hm : ∀ t, t ∈ ts ↔ t ∈ g.map T3.triple) (hr : ∀ d, (c.open' g m M).Reads d) :
    Sparql.Scan.AnswersT ((c.open' g m M).terms E srt (c.counts g).nel) ts :=
  fun d => C19_stored_partial c g h hg hM E srt ts hn hm d (hr d)

/-- `std::sort` of keys. -/
def SortsInts (srt : List Int → List Int) : Prop := ∀ l, (srt l).Perm l ∧ (srt l).Pairwise (· ≤ ·)

theorem mem_eraseDups' {l : List Int} {x : Int} : x ∈ l.eraseDups ↔ x ∈ l := by simp

theorem nodup_eraseDups (l : List Int) : l.eraseDups.Nodup := by
  generalize hk : l.length = k
  induction k using Nat.strongRecOn generalizing l with
  | _ k ih =>
    cases l with
    | nil => exact .nil
    | cons a l =>
      rw [List.eraseDups_cons, List.nodup_cons]
      refine ⟨fun h => ?_, ih _ ?_ _ rfl⟩
      · have := (List.mem_filter.1 (mem_eraseDups'.1 h)).2
        simp at this
      · have := List.length_filter_le (fun b => !b == a) l
        rw [List.length_cons] at hk
        omega

theorem collected {srt : List Int → List Int} (hs : SortsInts srt) (l : List Int) : (srt l.eraseDups).Pairwise (· < ·) ∧ ∀ x, x ∈ srt l.eraseDups ↔ x ∈ l := by
  obtain ⟨h1, h2⟩ := hs l.eraseDups
  refine ⟨?_, fun x => by rw [h1.mem_iff, mem_eraseDups']⟩
  have h3 : (srt l.eraseDups).Nodup := h1.nodup_iff.2 (nodup_eraseDups l)
  exact (h2.and h3).imp fun ⟨a, b⟩ => by omega

/-- **C19** for predicates and objects in an order that cannot be read, while SPO can: the keys are listed once, in increasing order.  The count is always 1, see
`C19_absent_order_violated`. -/
theorem C19_absent_order_partial (kb : KB) (g : List Triple) (h : Loaded kb g) (hg : g ≠ []) (E : Env) (hE : SortsPairs E.sortP) (hf : g.length < E.fuel)
    (hp : kb.present 0 = true) (srt : List Int → List Int) (hs : SortsInts srt) (nel : Int → Nat → Option Nat) (d : Order) (hd : kb.files (baseOf d.idx) = none)
    (hx : d.positions.1 ≠ .s) :
    ∃ o out, kb.terms E srt nel d.idx = some o ∧ o.Returns out ∧ (out.map (·.1)).Pairwise (· < ·) ∧ (∀ k, k ∈ out.map (·.1) ↔ k ∈ g.map d.key) ∧ ∀ r ∈ out, r.2 = 1 := by
  have hst : kb.storedTerms nel d.idx = none := by unfold KB.storedTerms; rw [hd]; rfl
  suffices hc : ∃ l : List Int, kb.collectTerms E srt d.idx = some (srt l.eraseDups) ∧ ∀ k, k ∈ l ↔ k ∈ g.map d.key by
    obtain ⟨l, h1, h2⟩ := hc
    obtain ⟨h3, h4⟩ := collected hs l
    refine ⟨_, _, by unfold KB.terms; rw [hst, h1]; rfl, keys_returns _, ?_, ?_, ?_⟩
    · rw [List.map_map]
      rw [show ((fun x : Pair => x.1) ∘ fun k : Int => (k, (1 : Int))) = id from rfl, List.map_id]
      exact h3
    · intro k
      rw [List.map_map, show ((fun x : Pair => x.1) ∘ fun k : Int => (k, (1 : Int))) = id from rfl, List.map_id, h4, h2]
    · intro r hr
      obtain ⟨k, -, rfl⟩ := List.mem_map.1 hr
      rfl
  have hreads : kb.Reads .spo := .inl hp
  obtain ⟨ts, hn, hm, hlen⟩ := exists_nodup g
  obtain ⟨out, ⟨o, a1, a2⟩, a3, a4⟩ := C21_stored_partial kb g h E hE hf ⟨none, none, none⟩ (by intro x v hv; cases x <;> cases hv) .spo hreads
    (by intro h; cases h) (by intro h; cases h) (.inl hg)
  obtain ⟨outD, ⟨oD, b1, b2⟩, b3, b4⟩ := C88_stored_partial kb g h E hE hf ts hn hm ⟨none, none, none⟩ (by intro x v hv; cases x <;> cases hv) .spo hreads
    (by intro h; cases h) rfl (.inl hg)
  have hall : ∀ t, (⟨none, none, none⟩ : Pattern).Matches t := by intro t x v hv; cases x <;> cases hv
  have hlenO : out.length < E.fuel := by
    have hnd : out.Nodup := a3.imp fun h e => by subst e; simp only [Row3.lt, Pair.lt] at h; omega
    have := length_le_of_nodup_subset hnd (l' := g.map Order.spo.row) fun r hr => by
      obtain ⟨t, ht, -, e⟩ := (a4 r).1 hr
      exact List.mem_map.2 ⟨t, ht, e⟩
    rw [List.length_map] at this
    omega
  have hD : ∀ k v, (∃ c, (k, (v, c)) ∈ outD) ↔ ∃ t ∈ g, Order.spo.key t = k ∧ (Order.spo.pair t).1 = v := by
    intro k v
    constructor
    · rintro ⟨c, hc⟩
      obtain ⟨-, -, e1, e2⟩ := (b4 k v c).1 hc
      have hpos : 0 < countOf ts .spo k v := by omega
      obtain ⟨t, ht⟩ := List.exists_mem_of_length_pos hpos
      obtain ⟨ht, e⟩ := List.mem_filter.1 ht
      exact ⟨t, (hm t).1 ht, by simpa using e⟩
    · rintro ⟨t, ht, e1, e2⟩
      have hpos : 0 < countOf ts .spo k v := List.length_pos_of_mem (List.mem_filter.2 ⟨(hm t).2 ht, by simp [e1, e2]⟩)
      exact ⟨_, (b4 k v _).2 ⟨(by rintro a ⟨⟩), (by rintro a ⟨⟩), rfl, by omega⟩⟩
  have hlenD : outD.length < E.fuel := by
    have hnd : (outD.map fun r => (r.1, r.2.1)).Nodup := by
      rw [List.Nodup, List.pairwise_map]
      refine b3.imp fun h e => ?_
      rw [Prod.mk.injEq] at e
      simp only [Row3.lt2] at h
      omega
    have := length_le_of_nodup_subset hnd (l' := g.map fun t => (Order.spo.key t, (Order.spo.pair t).1)) fun r hr => by
      obtain ⟨x, hx, rfl⟩ := List.mem_map.1 hr
      obtain ⟨t, ht, e1, e2⟩ := (hD x.1 x.2.1).1 ⟨x.2.2, hx⟩
      exact List.mem_map.2 ⟨t, ht, by rw [e1, e2]⟩
    rw [List.length_map, List.length_map] at this
    omega
  have a1 : kb.getIterator E 0 (-1) (-1) (-1) = .itr o := a1
  have b1 : kb.getIteratorD E 0 (-1) (-1) (-1) = .itr oD := b1
  have memO : ∀ k, k ∈ (drain o.I E.fuel o.s).map (·.2.2) ↔ k ∈ g.map (·.o) := by
    intro k
    rw [drain_eq a2 hlenO, List.mem_map, List.mem_map]
    constructor
    · rintro ⟨r, hr, rfl⟩
      obtain ⟨t, ht, -, rfl⟩ := (a4 r).1 hr
      exact ⟨t, ht, rfl⟩
    · rintro ⟨t, ht, rfl⟩
      exact ⟨_, (a4 _).2 ⟨t, ht, hall t, rfl⟩, rfl⟩
  have memP : ∀ k, k ∈ (drain oD.I E.fuel oD.s).map (·.2.1) ↔ k ∈ g.map (·.p) := by
    intro k
    rw [drain_eq b2 hlenD, List.mem_map, List.mem_map]
    constructor
    · rintro ⟨r, hr, rfl⟩
      obtain ⟨t, ht, -, e⟩ := (hD r.1 r.2.1).1 ⟨r.2.2, hr⟩
      exact ⟨t, ht, e⟩
    · rintro ⟨t, ht, rfl⟩
      obtain ⟨c, hc⟩ := (hD t.s t.p).2 ⟨t, ht, rfl, rfl⟩
      exact ⟨_, hc, rfl⟩
  unfold KB.collectTerms
  rw [a1, b1]
  cases d with
  | spo => exact absurd rfl hx
  | sop => exact absurd rfl hx
  | pos => exact ⟨_, rfl, memP⟩
  | pso => exact ⟨_, rfl, memP⟩
  | osp => exact ⟨_, rfl, memO⟩
  | ops => exact ⟨_, rfl, memO⟩

/-- Insertion sort. -/
def insertInt (x : Int) : List Int → List Int
  | [] => [x]
  | y :: l => if x ≤ y then x :: y :: l else y :: insertInt x l
def sortInts (l : List Int) : List Int := l.foldr insertInt []

theorem insertInt_spec (x : Int) (l : List Int) (h : l.Pairwise (· ≤ ·)) : (insertInt x l).Perm (x :: l) ∧ (insertInt x l).Pairwise (· ≤ ·) := by
  induction l with
  | nil => exact ⟨.refl _, by simp [insertInt]⟩
  | cons y l ih =>
    rw [List.pairwise_cons] at h
    obtain ⟨h1, h2⟩ := ih h.2
    unfold insertInt
    split
    · rename_i hxy
      refine ⟨.refl _, List.pairwise_cons.2 ⟨fun z hz => ?_, List.pairwise_cons.2 h⟩⟩
      rcases List.mem_cons.1 hz with rfl | hz
      · exact hxy
      · have := h.1 z hz; omega
    · refine ⟨(h1.cons y).trans (.swap ..), List.pairwise_cons.2 ⟨fun z hz => ?_, h2⟩⟩
      rcases List.mem_cons.1 (h1.mem_iff.1 hz) with rfl | hz
      · omega
      · exact h.1 z hz

theorem sortInts_sorts : SortsInts sortInts := by
  intro l
  induction l with
  | nil => exact ⟨.refl _, .nil⟩
  | cons x l ih =>
    obtain ⟨h1, h2⟩ := insertInt_spec x _ ih.2
    exact ⟨h1.trans (ih.1.cons x), h2⟩

/-- **C19** is false of the counts in an order that cannot be read: in the example graph, with the index SPO only, predicate 1 has three triples and is listed with the count 1. -/
theorem C19_absent_order_violated : ∃ (m : Mem) (M : Nat → Maps), (∀ i, i < 6 → Mapped m (M i) (exConfig1.ins exGraph i).store.files) ∧
    ∃ o out, (exConfig1.open' exGraph m M).terms ⟨isort, msort, 100⟩ sortInts (exConfig1.counts exGraph).nel Order.pso.idx = some o ∧ o.Returns out ∧ out = [(1, 1), (4, 1)] ∧
      (exTriples.map Order.pso.key).count 1 = 3 ∧ ¬ IsTermList (exTriples.map Order.pso.key) out := by
  obtain ⟨m, M, hM⟩ := exists_mapped fun i => (exConfig1.ins exGraph i).store.files
  have hfile : (exConfig1.open' exGraph m M).files 2 = none := by
    have hl := exOk1.loaded (m := m) (M := M) hM
    rfl
  obtain ⟨o, out, h1, h2, h3, h4, h5⟩ := C19_absent_order_partial _ _ (exOk1.loaded (m := m) (M := M) hM) (by decide) ⟨isort, msort, 100⟩ isort_sorts (show 5 < 100 by omega)
    (show permsOf 1 0 = true by decide) sortInts sortInts_sorts (exConfig1.counts exGraph).nel .pso hfile (by decide)
  have hout : out = [(1, 1), (4, 1)] := by
    have e1 : out.map (·.1) = [1, 4] := by
      refine List.Perm.eq_of_pairwise (fun a b _ _ h1 h2 => by omega) h3 (by decide) ?_
      refine (List.perm_ext_iff_of_nodup (h3.imp fun h => by omega) (by decide)).2 fun k => ?_
      rw [h4]
      have : (exGraph.map T3.triple).map Order.pso.key = [1, 1, 1, 4, 1] := by decide
      rw [this]
      simp only [List.mem_cons, List.not_mem_nil, or_false]
      omega
    have e2 : out = (out.map (·.1)).map fun k => (k, 1) := by
      rw [List.map_map]
      refine (List.map_id out).symm.trans (List.map_congr_left fun r hr => ?_)
      exact Prod.ext rfl (h5 r hr)
    rw [e2, e1]
    rfl
  refine ⟨m, M, hM, o, out, h1, h2, hout, by decide, fun h => ?_⟩
  have := h.2.2 (1, 1) (by rw [hout]; decide)
  revert this
  decide

/-- The hypotheses of `C19_stored_partial` are met: the predicates of the example graph with six indices. -/
example : ∃ (m : Mem) (M : Nat → Maps) (o : Obj) (out : List Pair), (∀ i, i < 6 → Mapped m (M i) (exConfig.ins exGraph i).store.files) ∧
    (exConfig.open' exGraph m M).terms ⟨isort, msort, 100⟩ sortInts (exConfig.counts exGraph).nel Order.pso.idx = some o ∧ o.Returns out ∧
    IsTermList (exTriples.map Order.pso.key) out ∧ exTriples.map Order.pso.key = [1, 1, 4, 1] := by
  obtain ⟨m, M, hM⟩ := exists_mapped fun i => (exConfig.ins exGraph i).store.files
  obtain ⟨o, out, h1, h2, h3⟩ := C19_stored_partial exConfig exGraph exOk (by decide) hM ⟨isort, msort, 100⟩ sortInts exTriples (by decide) (by
      have h1 : ∀ t ∈ exTriples, t ∈ exGraph.map T3.triple := by decide
      have h2 : ∀ t ∈ exGraph.map T3.triple, t ∈ exTriples := by decide
      exact fun t => ⟨h1 t, h2 t⟩) .pso (.inl (show permsOf 6 5 = true by decide))
  exact ⟨m, M, o, out, hM, h1, h2, h3, by decide⟩

end Trident
