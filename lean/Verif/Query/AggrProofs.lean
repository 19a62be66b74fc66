import Verif.Query.Aggr
import Verif.Query.DistinctProofs
/-! Helper proofs for reading only the first column (no property statements here). -/
namespace Trident
open Strat

namespace Arr
variable {l : List (Nat × Nat)}

theorem skipEq_countLoop (p : Nat) (q c : Nat) (hp : p < q) (heq : (get l (q - 1)).1 = (get l p).1) :
    skipEq l ((get l p).1 : Int) q = (countLoop l q c).1 := by
  generalize hn : l.length - q = n
  induction n generalizing q c with
  | zero =>
    unfold skipEq countLoop
    rw [if_neg (by omega), if_neg (by omega)]
  | succ n ih =>
    have hq : q < l.length := by omega
    unfold skipEq countLoop
    rw [if_pos hq, if_pos hq, heq]
    by_cases h : (get l q).1 = (get l p).1
    · rw [if_neg (fun e => e (by rw [h])), if_pos h]
      exact ih (q + 1) (c + 1) (by omega) (by simpa using h) (by omega)
    · rw [if_pos (fun e => h (by omega)), if_neg h]

/-- After `hasNext` the iterator is at `p`. -/
def At (l : List (Nat × Nat)) (s : St) (p : Nat) : Prop :=
  (Arr.hasNext l s).1 = decide (p < l.length) ∧ (Arr.hasNext l s).2.pos = p ∧ (Arr.hasNext l s).2.ign = true ∧ (Arr.hasNext l s).2.c1 = -1

theorem At.yields {s : St} {p : Nat} (h : At l s p) : ∃ out, Yields (itr l) s out ∧ out.map (·.1) = (runs (rem l p)).map (·.1) := by
  generalize hn : l.length - p = n
  induction n using Nat.strongRecOn generalizing s p with
  | _ n ih =>
    obtain ⟨h1, h2, h3, h4⟩ := h
    by_cases hp : p < l.length
    · generalize hx : Arr.hasNext l s = x at h1 h2 h3 h4
      obtain ⟨b, pos, v1, v2, cc1, cc2, hnc, nn, ign, count, markPos⟩ := x
      simp only at h1 h2 h3 h4
      subst h1 h2 h3 h4
      -- the same position with counts
      have hg : GoodD l ⟨pos, v1, v2, -1, cc2, true, decide (pos < l.length), true, count, markPos⟩ :=
        ⟨rfl, rfl, Nat.le_of_lt hp, fun _ => rfl, fun h => by simp at h⟩
      have hy := hg.yields
      simp only at hy
      obtain ⟨c1, c2, c3, c4, c5⟩ := countLoop_spec (l := l) (pos + 1) 1 (by omega) (by omega)
      have hskip := skipEq_countLoop (l := l) pos (pos + 1) 1 (by omega) (by simp)
      generalize hr : countLoop l (pos + 1) 1 = r at *
      have hne : runs (rem l pos) ≠ [] := by
        have : rem l pos ≠ [] := by
          intro e
          have := congrArg List.length e
          simp [rem, toI_length] at this; omega
        exact Scan.runs_ne_nil this
      obtain ⟨a, t, hat⟩ := List.exists_cons_of_ne_nil hne
      rw [hat, yields_cons] at hy
      obtain ⟨-, y2, y3⟩ := hy
      have hstep : (itrD l).next ((itrD l).hasNext ⟨pos, v1, v2, -1, cc2, true, decide (pos < l.length), true, count, markPos⟩).2 =
          ⟨r.1, (get l pos).1, (get l pos).2, -1, cc2, false, decide (pos < l.length), true, r.2, markPos⟩ := by
        simp only [itrD, Arr.hasNext, if_true, getCount, next, hr]
      rw [hstep] at y2 y3
      have hgd : GoodD l ⟨r.1, (get l pos).1, (get l pos).2, -1, cc2, false, decide (pos < l.length), true, r.2, markPos⟩ := by
        refine ⟨rfl, rfl, c2, fun h => by simp at h, fun _ hlt => ?_⟩
        have := c5 hlt
        simp only [Nat.add_sub_cancel] at this
        simp only at hlt ⊢
        omega
      have ht : t = runs (rem l r.1) := y3.unique hgd.yields
      -- the step without counts
      have hnext : (itr l).next ((itr l).hasNext s).2 = ⟨pos + 1, (get l pos).1, (get l pos).2, -1, cc2, false, nn, true, 0, markPos⟩ := by
        show next l (Arr.hasNext l s).2 = _
        rw [hx]; simp only [next]
      have hat' : At l ((itr l).next ((itr l).hasNext s).2) r.1 := by
        rw [hnext]
        simp only [At, Arr.hasNext, Bool.false_eq_true, if_false, if_true, hskip, and_self]
      obtain ⟨out, o1, o2⟩ := ih (l.length - r.1) (by omega) hat' rfl
      refine ⟨(itr l).val ((itr l).next ((itr l).hasNext s).2) :: out, ?_, ?_⟩
      · rw [yields_cons]
        exact ⟨by show (Arr.hasNext l s).1 = true; rw [hx]; simpa using hp, rfl, o1⟩
      · rw [hat, List.map_cons, List.map_cons, o2, ht, ← y2, hnext]
        rfl
    · refine ⟨[], ?_, ?_⟩
      · rw [yields_nil]
        show (Arr.hasNext l s).1 = false
        rw [h1]; simpa using hp
      · have : rem l p = [] := by
          apply List.eq_nil_of_length_eq_zero
          simp [rem, toI_length]; omega
        rw [this]; rfl

theorem at_init (hne : l ≠ []) : At l (ignoreSecondColumn (init l (-1) (-1))) 0 := by
  have : 0 < l.length := List.length_pos_iff.2 hne
  simp [At, Arr.hasNext, ignoreSecondColumn, init, this]

end Arr

/-- Each first value once, in increasing order. -/
def FirstsOf (ps : List Pair) (vs : List Int) : Prop := vs.Pairwise (· < ·) ∧ ∀ v, v ∈ vs ↔ v ∈ ps.map (·.1)

theorem IsDistinct.firsts {ps : List Pair} {out : List (Int × Int)} (h : IsDistinct ps out) : FirstsOf ps (out.map (·.1)) := ⟨h.1, h.2.1⟩

theorem onReverseA_returns (sort) (hsort : SortsPairs sort) (old : Obj) (ps : List Pair) (hold : old.Returns ps)
    (hpos : ∀ p ∈ ps, 0 ≤ p.1 ∧ 0 ≤ p.2) (fuel : Nat) (hf : ps.length < fuel) :
    ∃ out, (Obj.onReverseA sort fuel old).Returns out ∧ FirstsOf (ps.map fun p => (p.2, p.1)) (out.map (·.1)) := by
  have hdr : drain old.I fuel old.s = ps := drain_eq hold hf
  have hrev := toI_reversed hpos (argOf none)
  rw [matching_swap] at hrev
  rw [show (none : Option Nat).map Int.ofNat = none from rfl, matching_none, show argOf none = -1 from rfl] at hrev
  unfold Obj.onReverseA
  rw [hdr]
  simp only
  by_cases hl : (reversed (-1) ps).length > 0
  · rw [if_pos hl]
    obtain ⟨hp, hso⟩ := hsort (reversed (-1) ps)
    have hs := toI_sorted hso
    have hne : sort (reversed (-1) ps) ≠ [] := by
      intro e; rw [e] at hp; have := hp.length_eq; simp at this; omega
    have hpt : (toI (sort (reversed (-1) ps))).Perm (ps.map fun p => (p.2, p.1)) := by
      rw [← hrev]; exact hp.map _
    obtain ⟨out, o1, o2⟩ := (Arr.at_init hne).yields
    refine ⟨out, o1, ?_⟩
    rw [o2]
    exact (IsDistinct.of_perm (isDistinct_runs (ps := toI (sort (reversed (-1) ps))) (hs.imp fun h => by unfold Pair.le at h; omega)) hpt).firsts
  · rw [if_neg hl]
    have e : (ps.map fun p => (p.2, p.1)) = [] := by
      rw [← hrev, List.eq_nil_of_length_eq_zero (l := reversed (-1) ps) (by omega)]
      rfl
    rw [e]
    exact ⟨[], .done rfl, isDistinct_nil.firsts⟩

variable {kb : KB} {g : List Triple} {E : Env}

theorem Loaded.getA_returns (h : Loaded kb g) (hE : SortsPairs E.sortP) (hf : g.length < E.fuel) (d : Order)
    (hpres : kb.present d.idx = true ∨ (d.idx ≥ 3 ∧ kb.present (d.idx - 3) = true))
    {k cs} (hk : kb.coords k = some cs) :
    ∃ out, (kb.getA E d.idx cs).Returns out ∧ (out.map (·.1)).Pairwise (· < ·) ∧ ∀ v, v ∈ out.map (·.1) ↔ ∃ t ∈ g, d.key t = k ∧ (d.pair t).1 = v := by
  have fin : ∀ {ps : List Pair} {vs : List Int}, PairsOf g d k ps → FirstsOf ps vs → vs.Pairwise (· < ·) ∧ ∀ v, v ∈ vs ↔ ∃ t ∈ g, d.key t = k ∧ (d.pair t).1 = v := by
    intro ps vs hp hv
    refine ⟨hv.1, fun v => ?_⟩
    rw [hv.2, List.mem_map]
    constructor
    · rintro ⟨p, hp', rfl⟩
      obtain ⟨t, a, b, c⟩ := (hp p).1 hp'
      exact ⟨t, a, b, by rw [c]⟩
    · rintro ⟨t, a, b, rfl⟩
      exact ⟨d.pair t, (hp _).2 ⟨t, a, b, rfl⟩, rfl⟩
  unfold KB.getA
  have hempty : (∀ t ∈ g, d.key t ≠ k) → ∃ out, Obj.empty.Returns out ∧ (out.map (·.1)).Pairwise (· < ·) ∧ ∀ v, v ∈ out.map (·.1) ↔ ∃ t ∈ g, d.key t = k ∧ (d.pair t).1 = v :=
    fun hno => ⟨[], .done rfl, .nil, fun v => ⟨fun h => absurd h List.not_mem_nil, fun ⟨t, ht, hkt, _⟩ => absurd hkt (hno t ht)⟩⟩
  cases hcs : cs d.idx with
  | some e =>
    obtain ⟨ps, g1, g2⟩ := h.tables d k cs e hk hcs
    obtain ⟨out, o1, o2⟩ := g1.distinct (-1)
    rw [show optOf (-1) = none from rfl, matching_none] at o1
    obtain ⟨f1, f2⟩ := fin g2 o1.firsts
    exact ⟨out, o2, f1, f2⟩
  | none =>
    simp only
    by_cases hd : d.idx ≥ 3
    · rw [if_pos hd]
      obtain ⟨d', e1, e2, e3⟩ := d.exists_partner hd
      cases hcs' : cs (d.idx - 3) with
      | some e =>
        obtain ⟨ps, g1, g2⟩ := h.tables d' k cs e hk (by rw [e1]; exact hcs')
        have hret := g1.returns (-1) (-1)
        rw [show optOf (-1) = none from rfl, matching_none] at hret
        have hlen := pairsOf_length g2 g1.sorted
        obtain ⟨out, o1, o2⟩ := onReverseA_returns E.sortP hE _ ps hret g1.nonneg E.fuel (by omega)
        obtain ⟨f1, f2⟩ := fin (ps := ps.map fun p => (p.2, p.1)) (fun p => g2.swap e2 e3 p) o2
        exact ⟨out, o1, f1, f2⟩
      | none =>
        refine hempty fun t ht hkt => ?_
        have hp3 : kb.present (d.idx - 3) = true := by
          rcases hpres with hp | hp
          · exact h.partner _ hd hp
          · exact hp.2
        have hlt : d.idx - 3 < 3 := by cases d <;> simp [Order.idx]
        obtain ⟨cs', e, q1, q2⟩ := h.complete d' (by rw [e1]; exact hlt) (by rw [e1]; exact hp3) t ht
        rw [← e2, hkt, hk] at q1
        obtain rfl := Option.some.inj q1
        rw [e1, hcs'] at q2
        simp at q2
    · rw [if_neg hd]
      refine hempty fun t ht hkt => ?_
      obtain ⟨cs', e, q1, q2⟩ := h.complete d (by omega) (by
        rcases hpres with hp | hp
        · exact hp
        · exact absurd hp.1 hd) t ht
      rw [hkt, hk] at q1
      obtain rfl := Option.some.inj q1
      rw [hcs] at q2
      simp at q2

end Trident
