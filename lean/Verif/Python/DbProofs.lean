import Verif.Python.Db
import Verif.Python.Spec
import Verif.Props.Scan
import Verif.Query.AggrProofs
import Verif.Query.PairCardProofs
/-! Helper proofs for the Python module (no property statements here). -/
namespace Trident.Python
open Trident Strat Load Join

/-- The pattern with the given values in the order. -/
def patternOf (d : Order) (x1 x2 x3 : Option Int) : Pattern :=
  match d with
  | .spo => ⟨x1, x2, x3⟩
  | .ops => ⟨x3, x2, x1⟩
  | .pos => ⟨x3, x1, x2⟩
  | .sop => ⟨x1, x3, x2⟩
  | .osp => ⟨x2, x3, x1⟩
  | .pso => ⟨x2, x1, x3⟩

theorem patternOf_at (d : Order) (x1 x2 x3 : Option Int) :
    (patternOf d x1 x2 x3).at d.positions.1 = x1 ∧ (patternOf d x1 x2 x3).at d.positions.2.1 = x2 ∧ (patternOf d x1 x2 x3).at d.positions.2.2 = x3 := by
  cases d <;> exact ⟨rfl, rfl, rfl⟩

theorem unpermute_pattern (d : Order) (x1 x2 x3 : Option Int) : unpermute d.idx (argOfPos x1) (argOfPos x2) (argOfPos x3) =
    (argOfPos (patternOf d x1 x2 x3).s, argOfPos (patternOf d x1 x2 x3).p, argOfPos (patternOf d x1 x2 x3).o) := by
  cases d <;> rfl

theorem wf_patternOf (d : Order) {x1 x2 x3 : Option Int} (h1 : ∀ v ∈ x1, 0 ≤ v) (h2 : ∀ v ∈ x2, 0 ≤ v) (h3 : ∀ v ∈ x3, 0 ≤ v) : (patternOf d x1 x2 x3).Wf := by
  intro x v hv
  cases d <;> cases x <;> first | exact h1 v hv | exact h2 v hv | exact h3 v hv

/-- The rows of `getPermuted`. -/
theorem permuted_returns {get : Nat → Int → Int → Int → QRes} {G : Triple → Prop} (ha : Answers get G) (d : Order) {x1 x2 x3 : Option Int}
    (h1 : ∀ v ∈ x1, 0 ≤ v) (h2 : ∀ v ∈ x2, 0 ≤ v) (h3 : ∀ v ∈ x3, 0 ≤ v) (h12 : x2.isSome → x1.isSome) (h23 : x3.isSome → x2.isSome) :
    ∃ out o, getPermuted get d.idx (argOfPos x1) (argOfPos x2) (argOfPos x3) = .itr o ∧ o.Returns out ∧ out.Pairwise Row3.lt ∧
      ∀ r, r ∈ out ↔ (∃ t, G t ∧ d.row t = r) ∧ (∀ v ∈ x1, r.1 = v) ∧ (∀ v ∈ x2, r.2.1 = v) ∧ ∀ v ∈ x3, r.2.2 = v := by
  obtain ⟨e1, e2, e3⟩ := patternOf_at d x1 x2 x3
  obtain ⟨out, o, a, b, c, e⟩ := ha (patternOf d x1 x2 x3) d (wf_patternOf d h1 h2 h3) (by rw [e1, e2]; exact h12) (by rw [e2, e3]; exact h23)
  refine ⟨out, o, ?_, b, c, fun r => ?_⟩
  · unfold getPermuted
    rw [unpermute_pattern]; exact a
  · rw [e]
    constructor
    · rintro ⟨t, h, hm, rfl⟩
      rw [matches_iff d, e1, e2, e3] at hm
      exact ⟨⟨t, h, rfl⟩, hm⟩
    · rintro ⟨⟨t, h, rfl⟩, hm⟩
      exact ⟨t, h, (matches_iff d _ t).2 (by rw [e1, e2, e3]; exact hm), rfl⟩

theorem collect_gives {α : Type} {r : QRes} {o : Obj3} {out : List Row3} (hr : r = .itr o) (h : o.Returns out) (f : Row3 → α) :
    Gives (fun fuel => collect f fuel r) (out.map f) := by
  refine ⟨out.length + 1, fun fuel hf => ?_⟩
  rw [hr]
  show some ((drain o.I fuel o.s).map f) = _
  rw [drain_eq h (by omega)]

theorem Gives.map {α β : Type} {f : Nat → Option α} {l : α} (h : Gives f l) (k : α → β) : Gives (fun n => (f n).map k) (k l) := by
  obtain ⟨n, h⟩ := h
  exact ⟨n, fun m hm => by show (f m).map k = _; rw [h m hm]; rfl⟩

theorem Gives.both {α β γ : Type} {f : Nat → Option α} {g : Nat → Option β} {a : α} {b : β} (hf : Gives f a) (hg : Gives g b) {k : Nat → Option γ} {c : γ}
    (hk : ∀ n, f n = some a → g n = some b → k n = some c) : Gives k c := by
  obtain ⟨n, hf⟩ := hf
  obtain ⟨m, hg⟩ := hg
  exact ⟨max n m, fun i hi => hk i (hf i (by omega)) (hg i (by omega))⟩

/-- One free value. -/
theorem permuted_one {get : Nat → Int → Int → Int → QRes} {G : Triple → Prop} (ha : Answers get G) (d : Order) {a b : Int} (h1 : 0 ≤ a) (h2 : 0 ≤ b) :
    ∃ out o, getPermuted get d.idx a b (-1) = .itr o ∧ o.Returns out ∧ Lists (out.map fun r => r.2.2) fun x => ∃ t, G t ∧ d.row t = (a, (b, x)) := by
  obtain ⟨out, o, e1, e2, e3, e4⟩ := permuted_returns ha d (x1 := some a) (x2 := some b) (x3 := none) (by rintro v ⟨⟩; exact h1) (by rintro v ⟨⟩; exact h2) (by simp) (by simp) (by simp)
  have hm : ∀ r, r ∈ out ↔ (∃ t, G t ∧ d.row t = r) ∧ r.1 = a ∧ r.2.1 = b := fun r => by
    rw [e4]; simp
  refine ⟨out, o, e1, e2, ?_, fun x => ?_⟩
  · refine List.pairwise_map.2 (e3.imp_of_mem fun {r r'} hr hr' hlt => ?_)
    have a1 := ((hm r).1 hr).2
    have a2 := ((hm r').1 hr').2
    simp only [Row3.lt, Pair.lt, a1.1, a2.1, a1.2, a2.2] at hlt
    omega
  · rw [List.mem_map]
    constructor
    · rintro ⟨⟨r1, r2, r3⟩, hr, rfl⟩
      obtain ⟨⟨t, ht, e⟩, f1, f2⟩ := (hm _).1 hr
      simp only at f1 f2
      subst f1 f2
      exact ⟨t, ht, e⟩
    · rintro ⟨t, ht, e⟩
      exact ⟨(a, (b, x)), (hm _).2 ⟨⟨t, ht, e⟩, rfl, rfl⟩, rfl⟩

/-- Two free values. -/
theorem permuted_two {get : Nat → Int → Int → Int → QRes} {G : Triple → Prop} (ha : Answers get G) (d : Order) {a : Int} (h1 : 0 ≤ a) :
    ∃ out o, getPermuted get d.idx a (-1) (-1) = .itr o ∧ o.Returns out ∧ Lists2 (out.map fun r => (r.2.1, r.2.2)) fun x y => ∃ t, G t ∧ d.row t = (a, (x, y)) := by
  obtain ⟨out, o, e1, e2, e3, e4⟩ := permuted_returns ha d (x1 := some a) (x2 := none) (x3 := none) (by rintro v ⟨⟩; exact h1) (by simp) (by simp) (by simp) (by simp)
  have hm : ∀ r, r ∈ out ↔ (∃ t, G t ∧ d.row t = r) ∧ r.1 = a := fun r => by
    rw [e4]; simp
  refine ⟨out, o, e1, e2, ?_, fun x y => ?_⟩
  · refine List.pairwise_map.2 (e3.imp_of_mem fun {r r'} hr hr' hlt => ?_)
    have a1 := ((hm r).1 hr).2
    have a2 := ((hm r').1 hr').2
    simp only [Row3.lt, Pair.lt, a1, a2] at hlt
    simp only; omega
  · rw [List.mem_map]
    constructor
    · rintro ⟨⟨r1, r2, r3⟩, hr, e⟩
      obtain ⟨⟨t, ht, e'⟩, f1⟩ := (hm _).1 hr
      simp only [Prod.mk.injEq] at f1 e
      exact ⟨t, ht, by rw [e', f1, e.1, e.2]⟩
    · rintro ⟨t, ht, e⟩
      exact ⟨(a, (x, y)), (hm _).2 ⟨⟨t, ht, e⟩, rfl⟩, rfl⟩

/-! ## Joins -/

theorem joinLoop_mem (a b : List Int) (ha : a.Pairwise (· < ·)) (hb : b.Pairwise (· < ·)) (x : Int) : x ∈ joinLoop a b ↔ x ∈ a ∧ x ∈ b := by
  generalize hn : a.length + b.length = n
  induction n using Nat.strongRecOn generalizing a b with
  | _ n ih =>
    match a, b with
    | [], b => simp [joinLoop]
    | a :: as, [] => simp [joinLoop]
    | a :: as, b :: bs =>
      obtain ⟨a1, a2⟩ := List.pairwise_cons.1 ha
      obtain ⟨b1, b2⟩ := List.pairwise_cons.1 hb
      rw [joinLoop]
      simp only [List.length_cons] at hn
      by_cases h : a = b
      · subst h
        rw [if_pos rfl, List.mem_cons, ih (as.length + bs.length) (by omega) as bs a2 b2 rfl, List.mem_cons, List.mem_cons]
        constructor
        · rintro (rfl | ⟨h1, h2⟩)
          · exact ⟨.inl rfl, .inl rfl⟩
          · exact ⟨.inr h1, .inr h2⟩
        · rintro ⟨rfl | h1, h2⟩
          · exact .inl rfl
          · rcases h2 with rfl | h2
            · exact .inl rfl
            · exact .inr ⟨h1, h2⟩
      · rw [if_neg h]
        by_cases h' : a < b
        · rw [if_pos h', ih (as.length + (bs.length + 1)) (by omega) as (b :: bs) a2 hb (by simp), List.mem_cons (a := x) (l := as)]
          constructor
          · rintro ⟨h1, h2⟩; exact ⟨.inr h1, h2⟩
          · rintro ⟨rfl | h1, h2⟩
            · rcases List.mem_cons.1 h2 with rfl | h2
              · exact absurd rfl h
              · have := b1 _ h2; omega
            · exact ⟨h1, h2⟩
        · rw [if_neg h', ih (as.length + 1 + bs.length) (by omega) (a :: as) bs ha b2 (by simp), List.mem_cons (a := x) (l := bs)]
          constructor
          · rintro ⟨h1, h2⟩; exact ⟨h1, .inr h2⟩
          · rintro ⟨h1, rfl | h2⟩
            · rcases List.mem_cons.1 h1 with rfl | h1
              · exact absurd rfl h
              · have := a1 _ h1; omega
            · exact ⟨h1, h2⟩

theorem joinLoop_sub (a b : List Int) : (joinLoop a b).Sublist a := by
  generalize hn : a.length + b.length = n
  induction n using Nat.strongRecOn generalizing a b with
  | _ n ih =>
    match a, b with
    | [], b => simp [joinLoop]
    | a :: as, [] => simp [joinLoop]
    | a :: as, b :: bs =>
      simp only [List.length_cons] at hn
      rw [joinLoop]
      split
      · exact (ih _ (by omega) as bs rfl).cons_cons a
      · split
        · exact (ih _ (by simp; omega) as (b :: bs) rfl).cons a
        · exact ih _ (by simp; omega) (a :: as) bs rfl

theorem advance_spec (v1 v2 : Int) (r : List Int) (h1 : 0 ≤ v1) (hr : r.Pairwise (· < ·)) (hr0 : ∀ x ∈ r, 0 ≤ x) (hv : v2 = -1 ∨ (0 ≤ v2 ∧ ∀ x ∈ r, v2 < x)) :
    ((advance v1 v2 r).1 = -1 ∧ (∀ x ∈ r, x < v1) ∧ (v2 = -1 ∨ v2 < v1)) ∨
    (v1 ≤ (advance v1 v2 r).1 ∧ (advance v1 v2 r).2.Pairwise (· < ·) ∧ (∀ x ∈ (advance v1 v2 r).2, 0 ≤ x ∧ (advance v1 v2 r).1 < x) ∧
      ∀ x, v1 ≤ x → ((x = (advance v1 v2 r).1 ∨ x ∈ (advance v1 v2 r).2) ↔ ((v2 ≠ -1 ∧ x = v2) ∨ x ∈ r))) := by
  induction r generalizing v2 with
  | nil =>
    simp only [advance]
    split
    · rename_i h; exact .inl ⟨rfl, by simp, h⟩
    · rename_i h
      refine .inr ⟨by omega, .nil, by simp, fun x hx => ?_⟩
      simp
      intro _; omega
  | cons y r ih =>
    obtain ⟨p1, p2⟩ := List.pairwise_cons.1 hr
    simp only [advance]
    split
    · rename_i h
      have h0 : 0 ≤ y := hr0 y (by simp)
      rcases ih y p2 (fun x hx => hr0 x (by simp [hx])) (.inr ⟨h0, p1⟩) with ⟨a, b, c⟩ | ⟨a, b, c, d⟩
      · refine .inl ⟨a, ?_, h⟩
        intro x hx
        rcases List.mem_cons.1 hx with rfl | hx
        · omega
        · exact b x hx
      · refine .inr ⟨a, b, c, fun x hx => ?_⟩
        rw [d x hx, List.mem_cons]
        constructor
        · rintro (⟨-, rfl⟩ | hx')
          · exact .inr (.inl rfl)
          · exact .inr (.inr hx')
        · rintro (⟨h2, rfl⟩ | rfl | hx')
          · omega
          · exact .inl ⟨by omega, rfl⟩
          · exact .inr hx'
    · rename_i h
      have hv' : 0 ≤ v2 ∧ ∀ x ∈ y :: r, v2 < x := by
        rcases hv with hv | hv
        · exact absurd (.inl hv) h
        · exact hv
      refine .inr ⟨by omega, hr, fun x hx => ⟨hr0 x hx, hv'.2 x hx⟩, fun x hx => ?_⟩
      simp only
      constructor
      · rintro (rfl | hx')
        · exact .inl ⟨by omega, rfl⟩
        · exact .inr hx'
      · rintro (⟨-, rfl⟩ | hx')
        · exact .inl rfl
        · exact .inr hx'

theorem existsLoop_spec (a : List Int) (v2 : Int) (r : List Int) (ha : a.Pairwise (· < ·)) (ha0 : ∀ x ∈ a, 0 ≤ x) (hr : r.Pairwise (· < ·)) (hr0 : ∀ x ∈ r, 0 ≤ x)
    (hv : v2 = -1 ∨ (0 ≤ v2 ∧ ∀ x ∈ r, v2 < x)) :
    existsLoop a v2 r = true ↔ ∃ x ∈ a, (v2 ≠ -1 ∧ x = v2) ∨ x ∈ r := by
  induction a generalizing v2 r with
  | nil => simp [existsLoop]
  | cons v1 a ih =>
    obtain ⟨p1, p2⟩ := List.pairwise_cons.1 ha
    have h0 : 0 ≤ v1 := ha0 v1 (by simp)
    simp only [existsLoop]
    rcases advance_spec v1 v2 r h0 hr hr0 hv with ⟨b1, b2, b3⟩ | ⟨b1, b2, b3, b4⟩
    · rw [if_neg (by simp [b1])]
      simp only [Bool.false_eq_true, false_iff]
      rintro ⟨x, hx, h⟩
      have hge : v1 ≤ x := by
        rcases List.mem_cons.1 hx with rfl | hx
        · omega
        · have := p1 x hx; omega
      rcases h with ⟨h, rfl⟩ | h
      · omega
      · have := b2 x h; omega
    · rw [if_pos (by omega)]
      by_cases he : (advance v1 v2 r).1 = v1
      · rw [if_pos he]
        simp only [true_iff]
        exact ⟨v1, by simp, (b4 v1 (by omega)).1 (.inl he.symm)⟩
      · rw [if_neg he, ih _ _ p2 (fun x hx => ha0 x (by simp [hx])) b2 (fun x hx => (b3 x hx).1) (.inr ⟨by omega, fun x hx => (b3 x hx).2⟩)]
        constructor
        · rintro ⟨x, hx, h⟩
          refine ⟨x, by simp [hx], (b4 x (by have := p1 x hx; omega)).1 ?_⟩
          rcases h with ⟨-, h⟩ | h
          · exact .inl h
          · exact .inr h
        · rintro ⟨x, hx, h⟩
          rcases List.mem_cons.1 hx with rfl | hx
          · rcases (b4 x (by omega)).2 h with h | h
            · exact absurd h.symm he
            · have := (b3 x h).2; omega
          · refine ⟨x, hx, ?_⟩
            rcases (b4 x (by have := p1 x hx; omega)).2 h with h | h
            · exact .inl ⟨by omega, h⟩
            · exact .inr h

/-! ## The iterator object -/

theorem calls_none (n : Nat) : calls n none = List.replicate n (-1) := by
  induction n with
  | zero => rfl
  | succ n ih => simp [calls, field1, ih, List.replicate_succ]

theorem calls_eq {o : Obj3} {out : List Row3} (h : o.Returns out) (n : Nat) :
    calls n (some o) = (out.map (fun r : Row3 => r.2.2) ++ List.replicate n (-1)).take n := by
  obtain ⟨σ, I, mv, s⟩ := o
  have h' : Yields I s out := h
  clear h
  induction h' generalizing n with
  | done hh =>
    cases n with
    | zero => rfl
    | succ n =>
      simp only [calls, field1]
      rw [hh]
      simp [calls_none, List.replicate_succ]
  | step hh hr ih =>
    cases n with
    | zero => rfl
    | succ n =>
      simp only [calls, field1]
      rw [if_pos hh]
      simp only [List.map_cons, List.cons_append, List.take_succ_cons, List.cons.injEq, true_and]
      rw [ih n]
      rw [List.take_append, List.take_append]
      congr 1
      rw [List.take_replicate, List.take_replicate]
      congr 1; omega

end Trident.Python
