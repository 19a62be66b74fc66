import Verif.Query.PairCard
import Verif.Query.DistinctProofs
/-! Helper proofs for cardinalities of lookups (no property statements here). -/
namespace Trident
open Strat

/-- A table of any layout with the first value fixed. -/
theorem tab_card (L : Layout) (thr : Nat) (l : List (Nat × Nat)) (m : Mem) (a : Nat) (hr : Readable L l) (hs : SortedS (toI l)) (hne : l ≠ [])
    (h : Placed m a (L.encode thr l)) (c1 : Int) :
    (let r := (Tab.itr m).hasNext (openTab m a (a + (L.encode thr l).length) L (some c1) none)
     if r.1 then r.2.card m else some 0) = some ((matching (toI l) (some c1) none).length : Int) := by
  have hy := C08_any_layout_partial L thr l m a hr hs hne h (some c1) none
  generalize hout : matching (toI l) (some c1) none = out at *
  simp only
  by_cases ho : out = []
  · subst ho
    rw [yields_nil] at hy
    rw [hy]; rfl
  · have hn : ((Tab.itr m).hasNext (openTab m a (a + (L.encode thr l).length) L (some c1) none)).1 = true := by
      obtain ⟨p, out', rfl⟩ := List.exists_cons_of_ne_nil ho
      rw [yields_cons] at hy
      exact hy.1
    rw [if_pos hn]
    rw [matching_first] at hout
    subst hout
    match L with
    | .row w1 w2 =>
      exact congrArg some (C16_row_cardinality w1 w2 l m a _ hr hs hne h (.first c1) _ (C09_row_first_fixed w1 w2 l m a hr hs.sorted hne h c1))
    | .cluster w1 w2 wc =>
      exact C16_cluster_cardinality_partial w1 w2 wc l m a _ hr hs.sorted h (.inr ⟨c1, rfl⟩) _ (C11_cluster_first_fixed w1 w2 wc l m a hr hs.sorted h c1)
    | .column =>
      exact congrArg (fun n : Nat => some (n : Int)) (C16_column_cardinality_partial thr l m a hr hs h _ (.inr (.inl ⟨c1, rfl⟩)) _
        (C12_column_first_fixed thr l m a hr hs h c1) (.inl ho))

variable {kb : KB} {g : List Triple} {E : Env}

theorem KB.Holds.card {e ps} (h : kb.Holds e ps) {v1 : Int} (h1 : 0 ≤ v1) :
    kb.openTabCard e v1 (-1) = some ((matching ps (some v1) none).length : Int) := by
  obtain ⟨L, thr, l, h1', -, h2, h3, h4, h5, h6, rfl⟩ := h
  unfold KB.openTabCard
  rw [h1', h6, show optOf v1 = some v1 by unfold optOf; rw [if_neg (by omega)]]
  exact tab_card L thr l kb.mem e.start h2 h4 h3 h5 v1

theorem reverseCard_eq (sort) (hsort : SortsPairs sort) (old : Obj) (ps : List Pair) (hold : old.Returns ps)
    (hpos : ∀ p ∈ ps, 0 ≤ p.1 ∧ 0 ≤ p.2) (fuel : Nat) (hf : ps.length < fuel) (c : Nat) :
    reverseCard sort fuel old c (-1) = some ((matching (ps.map fun p => (p.2, p.1)) (some (c : Int)) none).length : Int) := by
  have hdr : drain old.I fuel old.s = ps := drain_eq hold hf
  have hrev := toI_reversed hpos (argOf (some c))
  rw [matching_swap] at hrev
  have hret := (C22_reversed sort hsort old ps hold hpos fuel hf (some c) none (by simp))
  obtain ⟨out, o1, o2, o3, o4, -⟩ := hret
  unfold reverseCard
  rw [hdr]
  simp only
  have hlen : (reversed (c : Int) ps).length = (matching (ps.map fun p => (p.2, p.1)) (some (c : Int)) none).length := by
    have := congrArg List.length hrev
    rw [toI_length] at this
    exact this
  by_cases hl : (reversed (c : Int) ps).length > 0
  · rw [if_pos hl]
    have e : Obj.onReverse sort fuel old c (-1) = Obj.array (sort (reversed (c : Int) ps)) c (-1) := by
      unfold Obj.onReverse
      rw [hdr]; simp only; rw [if_pos hl]
    have o1' : (Obj.array (sort (reversed (c : Int) ps)) c (-1)).Returns out := by
      rw [← e]; exact o1
    have hne : out ≠ [] := by
      intro e0
      have h0 := o3.length_eq
      rw [e0] at h0
      have : (matching (ps.map fun p => (p.2, p.1)) (some (c : Int)) none).length = 0 := h0.symm
      omega
    have hn : ((Arr.itr (sort (reversed (c : Int) ps))).hasNext (Arr.init (sort (reversed (c : Int) ps)) c (-1))).1 = true := by
      obtain ⟨p, out', rfl⟩ := List.exists_cons_of_ne_nil hne
      exact ((yields_cons ..).1 o1').1
    rw [if_pos hn]
    have hig : ((Arr.itr (sort (reversed (c : Int) ps))).hasNext (Arr.init (sort (reversed (c : Int) ps)) c (-1))).2.ign = false := by
      have h0 : (Arr.init (sort (reversed (c : Int) ps)) c (-1)).ign = false := by
        unfold Arr.init; simp only; repeat' split
        all_goals rfl
      simp only [Arr.itr, Arr.hasNext]
      split <;> exact h0
    unfold Arr.getCardinality
    rw [hig]
    simp only [Bool.false_eq_true, if_false]
    rw [(hsort _).1.length_eq, hlen]
  · rw [if_neg hl]
    rw [← hlen]
    congr 1; omega

/-- The pairs counted on a key with coordinates. -/
theorem Loaded.pairCard_eq (h : Loaded kb g) (hE : SortsPairs E.sortP) (hf : g.length < E.fuel) (d : Order)
    (hpres : kb.present d.idx = true ∨ (d.idx ≥ 3 ∧ kb.present (d.idx - 3) = true))
    {k cs} (hk : kb.coords k = some cs) {c : Int} (hc : 0 ≤ c) :
    ∃ ps, kb.pairCard E d.idx cs c (-1) = some ((ps.filter fun p => p.1 = c).length : Int) ∧ SortedS ps ∧ PairsOf g d k ps := by
  unfold KB.pairCard
  cases hcs : cs d.idx with
  | some e =>
    obtain ⟨ps, g1, g2⟩ := h.tables d k cs e hk hcs
    exact ⟨ps, by rw [← matching_first]; exact g1.card hc, g1.sorted, g2⟩
  | none =>
    simp only
    have hempty : (∀ t ∈ g, d.key t ≠ k) → ∃ ps, some (0 : Int) = some ((ps.filter fun p => p.1 = c).length : Int) ∧ SortedS ps ∧ PairsOf g d k ps :=
      fun hno => ⟨[], rfl, .nil, fun p => ⟨fun h => absurd h List.not_mem_nil, fun ⟨t, ht, hkt, _⟩ => absurd hkt (hno t ht)⟩⟩
    by_cases hd : d.idx ≥ 3
    · rw [if_pos hd]
      obtain ⟨d', e1, e2, e3⟩ := d.exists_partner hd
      cases hcs' : cs (d.idx - 3) with
      | some e =>
        obtain ⟨ps, g1, g2⟩ := h.tables d' k cs e hk (by rw [e1]; exact hcs')
        have hret := g1.returns (-1) (-1)
        rw [show optOf (-1) = none from rfl, matching_none] at hret
        have hlen := pairsOf_length g2 g1.sorted
        have hcard := reverseCard_eq E.sortP hE _ ps hret g1.nonneg E.fuel (by omega) c.toNat
        rw [show ((c.toNat : Nat) : Int) = c by omega, matching_first] at hcard
        have hnd : ps.Nodup := g1.sorted.imp fun h e => by subst e; simp only [Pair.lt] at h; omega
        obtain ⟨qs, q1, q2⟩ := exists_sortedS (ps.map fun p => (p.2, p.1))
        have hperm : (ps.map fun p => (p.2, p.1)).Perm qs := by
          refine (List.perm_ext_iff_of_nodup ?_ ?_).2 fun p => (q2 p).symm
          · refine List.pairwise_map.2 (hnd.imp fun {a b} hab e => hab ?_)
            rw [Prod.mk.injEq] at e
            exact Prod.ext e.2 e.1
          · exact q1.imp fun h e => by subst e; simp only [Pair.lt] at h; omega
        refine ⟨qs, ?_, q1, fun p => by rw [q2, g2.swap e2 e3 p]⟩
        rw [← (hperm.filter _).length_eq]
        exact hcard
      | none =>
        refine hempty fun t ht hkt => ?_
        have hp3 : kb.present (d.idx - 3) = true := by
          rcases hpres with hp | hp
          · exact h.partner _ hd hp
          · exact hp.2
        have hlt : d.idx - 3 < 3 := by cases d <;> simp [Order.idx]
        obtain ⟨cs', e, q1, q2⟩ := h.complete d' (by rw [e1]; exact hlt) (by rw [e1]; exact hp3) t ht
        rw [← e2, hkt, hk] at q1
        obtain rfl := Option.some.inj q1
        rw [e1, hcs'] at q2
        simp at q2
    · rw [if_neg hd]
      refine hempty fun t ht hkt => ?_
      obtain ⟨cs', e, q1, q2⟩ := h.complete d (by omega) (by
        rcases hpres with hp | hp
        · exact hp
        · exact absurd hp.1 hd) t ht
      rw [hkt, hk] at q1
      obtain rfl := Option.some.inj q1
      rw [hcs] at q2
      simp at q2

end Trident
