import Verif.Query.Edges
import Verif.Join.ScanProofs
import Verif.Update.QueryProofs
import Verif.Props.Perm
/-! # The primitives on edges: proofs -/
namespace Trident.Edges

theorem tripleAt_row (d : Order) (t : Triple) : tripleAt d.idx (d.row t) = t := by cases d <;> rfl

theorem row_tripleAt (d : Order) (r : Row3) : d.row (tripleAt d.idx r) = r := by cases d <;> rfl

theorem yields_vals {σ α β : Type} {I : Itr σ α} (f : α → β) {s : σ} {l : List α} (h : Yields I s l) : Yields ({ hasNext := I.hasNext, next := I.next, val := fun s => f (I.val s) } : Itr σ β) s (l.map f) := by
  induction h with
  | done h => exact .done h
  | step h _ ih => exact .step h ih

theorem returns_edges {o : Obj3} {idx : Nat} {l : List Row3} (h : o.Returns l) : (EdgeItr.mk idx o).Returns (l.map (tripleAt idx)) := yields_vals (tripleAt idx) h

/-! ## FilterSameItr -/

theorem find_spec {σ : Type} {I : Itr σ Row3} {p : Nat × Nat} : ∀ {n : Nat} {s : σ} {l : List Row3}, Yields I s l → l.length < n →
    (l.filter (same p) = [] ∧ (find I p n s).1 = false) ∨
      ∃ x l', (find I p n s).1 = true ∧ I.val (find I p n s).2 = x ∧ l.filter (same p) = x :: l'.filter (same p) ∧ Yields I (find I p n s).2 l' ∧ l'.length < l.length
  | 0, _, _, _, h => absurd h (by omega)
  | n + 1, s, _, .done h, _ => by
    left
    simp [find, h]
  | n + 1, s, _, .step (l := l) h hy, hl => by
    by_cases hs : same p (I.val (I.next (I.hasNext s).2)) = true
    · right
      have e : find I p (n + 1) s = (true, I.next (I.hasNext s).2) := by simp [find, h, hs]
      rw [e]
      exact ⟨_, l, rfl, rfl, List.filter_cons_of_pos hs, hy, by simp⟩
    · have e : find I p (n + 1) s = find I p n (I.next (I.hasNext s).2) := by simp [find, h, hs]
      rw [e, List.filter_cons_of_neg hs]
      rcases find_spec (p := p) hy (n := n) (by simp at hl; omega) with g | ⟨x, l', g1, g2, g3, g4, g5⟩
      · exact .inl g
      · exact .inr ⟨x, l', g1, g2, g3, g4, by simp; omega⟩

theorem filtered_yields {σ : Type} {I : Itr σ Row3} {p : Nat × Nat} {k : Int} {fuel : Nat} : ∀ {n : Nat} {s : σ} {hn : Bool} {l : List Row3}, l.length ≤ n → Yields I s l → l.length < fuel →
    Yields (filterItr fuel p k I) ⟨s, hn, false⟩ ((l.filter (same p)).map fun r => (k, r.2)) := by
  intro n
  induction n with
  | zero =>
    intro s hn l h hy hf
    have : l = [] := List.length_eq_zero_iff.1 (by omega)
    subst this
    rcases find_spec (p := p) hy hf with ⟨_, g⟩ | ⟨x, l', _, _, g, _⟩
    · exact .done (by simpa [filterItr] using g)
    · cases g
  | succ n ih =>
    intro s hn l h hy hf
    rcases find_spec (p := p) hy hf with ⟨g1, g2⟩ | ⟨x, l', g1, g2, g3, g4, g5⟩
    · rw [g1]
      exact .done (by simpa [filterItr] using g2)
    · rw [g3, List.map_cons, yields_cons]
      refine ⟨by simpa [filterItr] using g1, ?_, ?_⟩
      · simp [filterItr, g2]
      · have := ih (hn := true) (s := (find I p fuel s).2) (by omega) g4 (by omega)
        simpa [filterItr, g1] using this

/-! ## Groups -/

/-- The runs of equal keys of a list. -/
def runs {κ : Type} [DecidableEq κ] (key : Row3 → κ) : List Row3 → List (κ × Nat)
  | [] => []
  | x :: l => (key x, 1 + (l.takeWhile fun y => decide (key y = key x)).length) :: runs key (l.dropWhile fun y => decide (key y = key x))
termination_by l => l.length
decreasing_by
  have := (List.dropWhile_sublist (l := l) fun y => decide (key y = key x)).length_le
  simp
  omega

theorem run_spec {σ κ : Type} [DecidableEq κ] {I : Itr σ Row3} (hi : I.Idem) {key : Row3 → κ} {k : κ} : ∀ {n : Nat} {s : σ} {l : List Row3} {c : Nat}, Yields I s l → l.length < n →
    ∃ nd s', run I key k n s c = (c + (l.takeWhile fun y => decide (key y = k)).length, nd, s') ∧
      ((l.dropWhile (fun y => decide (key y = k)) = [] ∧ nd = false ∧ Yields I s' []) ∨
        ∃ x l', l.dropWhile (fun y => decide (key y = k)) = x :: l' ∧ nd = true ∧ I.val s' = x ∧ Yields I s' l')
  | 0, _, _, _, _, h => absurd h (by omega)
  | n + 1, s, _, c, .done h, _ => ⟨false, (I.hasNext s).2, by simp [run, h], .inl ⟨rfl, rfl, yields_probed hi (.done h)⟩⟩
  | n + 1, s, _, c, .step (l := l) h hy, hl => by
    by_cases hk : key (I.val (I.next (I.hasNext s).2)) = k
    · have e : run I key k (n + 1) s c = run I key k n (I.next (I.hasNext s).2) (c + 1) := by simp [run, h, hk]
      obtain ⟨nd, s', g1, g2⟩ := run_spec hi (key := key) (k := k) (n := n) (c := c + 1) hy (by simp at hl; omega)
      refine ⟨nd, s', ?_, ?_⟩
      · rw [e, g1, List.takeWhile_cons_of_pos (by simpa using hk), List.length_cons]
        congr 1
        omega
      · rw [List.dropWhile_cons_of_pos (by simpa using hk)]
        exact g2
    · have e : run I key k (n + 1) s c = (c, true, I.next (I.hasNext s).2) := by simp [run, h, hk]
      refine ⟨true, _, ?_, .inr ⟨_, l, ?_, rfl, rfl, hy⟩⟩
      · rw [e, List.takeWhile_cons_of_neg (by simpa using hk)]
        rfl
      · rw [List.dropWhile_cons_of_neg (by simpa using hk)]

theorem grouped_yields {σ κ : Type} [DecidableEq κ] {I : Itr σ Row3} (hi : I.Idem) {key : Row3 → κ} {fuel : Nat} : ∀ {n : Nat} {l : List Row3}, l.length ≤ n → l.length < fuel →
    (∀ s hn nx cur, Yields I s l → Yields (grouped I key fuel) ⟨s, hn, false, false, nx, cur⟩ (runs key l)) ∧
      ∀ s hn nx cur x l', l = x :: l' → I.val s = x → Yields I s l' → Yields (grouped I key fuel) ⟨s, hn, false, true, nx, cur⟩ (runs key l) := by
  intro n
  induction n with
  | zero =>
    intro l h hf
    have : l = [] := List.length_eq_zero_iff.1 (by omega)
    subst this
    refine ⟨fun s hn nx cur hy => ?_, fun s hn nx cur x l' e => by cases e⟩
    rw [runs]
    exact .done (by simp [grouped, yields_nil.1 hy])
  | succ n ih =>
    intro l h hf
    have main : ∀ s x l' hn nd nx cur s0, l = x :: l' → I.val s = x → Yields I s l' →
        (if nd then (true, s0) else (let h := I.hasNext s0; if h.1 then (true, I.next h.2) else (false, h.2))) = (true, s) →
        Yields (grouped I key fuel) ⟨s0, hn, false, nd, nx, cur⟩ (runs key l) := by
      intro s x l' hn nd nx cur s0 e hv hy hstart
      subst e
      obtain ⟨nd', s', g1, g2⟩ := run_spec hi (key := key) (k := key x) (n := fuel) (c := 1) hy (by simp at hf; omega)
      have hh : (grouped I key fuel).hasNext ⟨s0, hn, false, nd, nx, cur⟩ = (true, ⟨s', true, true, nd', (key x, 1 + (l'.takeWhile fun y => decide (key y = key x)).length), cur⟩) := by
        simp only [grouped]
        rw [hstart]
        simp [hv, g1]
      have hle := (List.dropWhile_sublist (l := l') fun y => decide (key y = key x)).length_le
      obtain ⟨i1, i2⟩ := ih (l := l'.dropWhile fun y => decide (key y = key x)) (by simp at h; omega) (by simp at hf; omega)
      rw [runs, yields_cons, hh]
      refine ⟨rfl, rfl, ?_⟩
      rcases g2 with ⟨g, rfl, gy⟩ | ⟨y, l2, g, rfl, gv, gy⟩
      · exact i1 _ _ _ _ (g ▸ gy)
      · exact i2 _ _ _ _ _ _ g gv gy
    refine ⟨fun s hn nx cur hy => ?_, fun s hn nx cur x l' e hv hy => main s x l' hn true nx cur s e hv hy rfl⟩
    cases hy with
    | done h0 => rw [runs]; exact .done (by simp [grouped, h0])
    | @step _ l' h1 h2 => exact main _ _ l' hn false nx cur s rfl rfl h2 (by simp [h1])

/-- The groups of a list that is ordered by its keys. -/
theorem runs_spec {κ : Type} [DecidableEq κ] {key : Row3 → κ} {le : κ → κ → Prop} (hanti : ∀ a b, le a b → le b a → a = b) : ∀ {n : Nat} {l : List Row3}, l.length ≤ n →
    l.Pairwise (fun a b => le (key a) (key b)) →
      ((runs key l).map (·.1)).Nodup ∧ ∀ k c, (k, c) ∈ runs key l ↔ c = (l.filter fun y => decide (key y = k)).length ∧ 0 < c := by
  intro n
  induction n with
  | zero =>
    intro l h _
    have : l = [] := List.length_eq_zero_iff.1 (by omega)
    subst this
    rw [runs]
    refine ⟨by simp, fun k c => ⟨fun g => absurd g List.not_mem_nil, fun ⟨g1, g2⟩ => ?_⟩⟩
    simp at g1
    omega
  | succ n ih =>
    intro l h hp
    rcases l with _ | ⟨x, l⟩
    · exact ih (by simp) hp
    have hle := (List.dropWhile_sublist (l := l) fun y => decide (key y = key x)).length_le
    obtain ⟨hp1, hp2⟩ := List.pairwise_cons.1 hp
    obtain ⟨i1, i2⟩ := ih (l := l.dropWhile fun y => decide (key y = key x)) (by simp at h; omega) (hp2.sublist (List.dropWhile_sublist _))
    have hno : ∀ y ∈ l.dropWhile (fun y => decide (key y = key x)), key y ≠ key x := by
      intro y hy e
      rcases hd : l.dropWhile (fun y => decide (key y = key x)) with _ | ⟨z, m⟩
      · rw [hd] at hy; exact absurd hy List.not_mem_nil
      · have hz : key z ≠ key x := by
          have h := List.head_dropWhile_not (fun y => decide (key y = key x)) (l := l) (by rw [hd]; simp)
          simpa [hd] using h
        rw [hd] at hy
        have hsub : (z :: m).Sublist l := hd ▸ List.dropWhile_sublist _
        have hzl : z ∈ l := hsub.subset List.mem_cons_self
        rcases List.mem_cons.1 hy with rfl | hy
        · exact hz e
        · have h1 := hp1 z hzl
          have h2 := (List.pairwise_cons.1 (hp2.sublist hsub)).1 y hy
          exact hz (hanti _ _ (e ▸ h2) h1)
    have hsplit : ∀ k, ((x :: l).filter fun y => decide (key y = k)).length =
        if k = key x then 1 + (l.takeWhile fun y => decide (key y = key x)).length else ((l.dropWhile fun y => decide (key y = key x)).filter fun y => decide (key y = k)).length := by
      intro k
      have ht : ∀ y ∈ l.takeWhile (fun y => decide (key y = key x)), key y = key x := fun y hy => by
        simpa using List.all_eq_true.1 List.all_takeWhile y hy
      have e : l.filter (fun y => decide (key y = k)) =
          (l.takeWhile fun y => decide (key y = key x)).filter (fun y => decide (key y = k)) ++ (l.dropWhile fun y => decide (key y = key x)).filter (fun y => decide (key y = k)) := by
        rw [← List.filter_append, List.takeWhile_append_dropWhile]
      by_cases hk : k = key x
      · subst hk
        rw [if_pos rfl, List.filter_cons_of_pos (by simp), e, List.filter_eq_self.2 (fun y hy => by simpa using ht y hy), List.filter_eq_nil_iff.2 (fun y hy => by simpa using hno y hy)]
        simp
        omega
      · rw [if_neg hk, List.filter_cons_of_neg (by simpa using fun h => hk h.symm), e, List.filter_eq_nil_iff.2 (fun y hy => by rw [decide_eq_true_eq, ht y hy]; exact fun h => hk h.symm)]
        rfl
    rw [runs]
    constructor
    · rw [List.map_cons, List.nodup_cons]
      refine ⟨fun hm => ?_, i1⟩
      obtain ⟨⟨k, c⟩, hm, hk⟩ := List.mem_map.1 hm
      obtain ⟨g1, g2⟩ := (i2 k c).1 hm
      have : c ≠ 0 := by omega
      rw [g1] at this
      obtain ⟨y, hy⟩ := List.exists_mem_of_ne_nil ((l.dropWhile fun y => decide (key y = key x)).filter fun y => decide (key y = k)) (fun h => this (by rw [h]; rfl))
      obtain ⟨hy1, hy2⟩ := List.mem_filter.1 hy
      exact hno y hy1 ((of_decide_eq_true hy2).trans hk)
    · intro k c
      rw [List.mem_cons, hsplit]
      by_cases hk : k = key x
      · rw [if_pos hk]
        constructor
        · rintro (g | g)
          · injection g with g1 g2
            exact ⟨g2, by omega⟩
          · obtain ⟨g1, g2⟩ := (i2 k c).1 g
            have : c ≠ 0 := by omega
            rw [g1] at this
            obtain ⟨y, hy⟩ := List.exists_mem_of_ne_nil ((l.dropWhile fun y => decide (key y = key x)).filter fun y => decide (key y = k)) (fun h => this (by rw [h]; rfl))
            obtain ⟨hy1, hy2⟩ := List.mem_filter.1 hy
            exact absurd ((of_decide_eq_true hy2).trans hk) (hno y hy1)
        · rintro ⟨g1, _⟩
          exact .inl (by rw [hk, g1])
      · rw [if_neg hk]
        constructor
        · rintro (g | g)
          · injection g with g1 g2
            exact absurd g1 hk
          · exact (i2 k c).1 g
        · exact fun g => .inr ((i2 k c).2 g)

end Trident.Edges
