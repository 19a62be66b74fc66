import Verif.Tables.ColumnNotIn
/-!
# C111: the values of a column that are not in another one
-/
namespace Trident.NotIn

/-- Column `c` of the table has the values `l`: column 1 has the first terms, column 2 the second terms of the current first term.  They are in order, and there is at least one. -/
def Has (t : Table) (c : Nat) (l : List Nat) : Prop := (c = 1 ∧ l = t.firsts ∨ c = 2 ∧ l = t.seconds) ∧ l ≠ [] ∧ l.Pairwise (· ≤ ·)

/-- `x` is the first value of `l` that is not in `m`. -/
def FirstNotIn (l m : List Nat) (x : Nat) : Prop := ∃ pre post, l = pre ++ x :: post ∧ x ∉ m ∧ ∀ y ∈ pre, y ∈ m

theorem column_of_has {t : Table} {c : Nat} {l : List Nat} (h : Has t c l) : t.column c = some l := by
  rcases h.1 with ⟨rfl, rfl⟩ | ⟨rfl, rfl⟩ <;> rfl

theorem call_of_has {t o : Table} {c d : Nat} {l m : List Nat} (h : Has t c l) (g : Has o d m) (stop : Bool) : columnNotIn t c o d stop = .wrote (merge stop l m) := by
  rw [columnNotIn, column_of_has h, column_of_has g]
  simp [h.2.1, g.2.1]

theorem filter_head {l m : List Nat} {b : Nat} (h : ∀ a ∈ l, b < a) : l.filter (fun x => decide (x ∉ b :: m)) = l.filter (fun x => decide (x ∉ m)) := by
  refine List.filter_congr fun a ha => ?_
  have := h a ha
  have : a ≠ b := by omega
  simp [this]

theorem merge_all (l m : List Nat) (hl : l.Pairwise (· ≤ ·)) (hm : m.Pairwise (· ≤ ·)) : merge false l m = l.filter (fun x => decide (x ∉ m)) := by
  fun_induction merge false l m with
  | case1 => rfl
  | case2 a as => exact (List.filter_eq_self.2 (by simp)).symm
  | case3 a as b bs h1 h2 hs => cases hs
  | case4 a as b bs h1 h2 hs ih =>
    have hn : a ∉ b :: bs := fun h => by
      rcases List.mem_cons.1 h with rfl | h
      · omega
      · have := (List.pairwise_cons.1 hm).1 a h; omega
    rw [List.filter_cons_of_pos (by simpa using hn), ih (List.pairwise_cons.1 hl).2 hm]
  | case5 a as b bs h1 h2 ih =>
    have e : a = b := by omega
    subst e
    rw [List.filter_cons_of_neg (by simp), ih (List.pairwise_cons.1 hl).2 hm]
  | case6 a as b bs h1 ih =>
    rw [ih hl (List.pairwise_cons.1 hm).2, filter_head]
    intro x hx
    rcases List.mem_cons.1 hx with rfl | hx
    · omega
    · have := (List.pairwise_cons.1 hl).1 x hx; omega

theorem merge_stop (l m : List Nat) (hl : l.Pairwise (· ≤ ·)) (hm : m.Pairwise (· ≤ ·)) :
    (merge true l m = [] ∧ ∀ y ∈ l, y ∈ m) ∨ ∃ x, FirstNotIn l m x ∧ ((∃ b ∈ m, x < b) ∧ merge true l m = [x, x] ∨ (∀ b ∈ m, b < x) ∧ merge true l m = [x]) := by
  fun_induction merge true l m with
  | case1 => exact Or.inl ⟨rfl, by simp⟩
  | case2 a as => exact Or.inr ⟨a, ⟨[], as, rfl, by simp, by simp⟩, Or.inr ⟨by simp, by simp [rest]⟩⟩
  | case3 a as b bs h1 h2 hs =>
    refine Or.inr ⟨a, ⟨[], as, rfl, fun h => ?_, by simp⟩, Or.inl ⟨⟨b, List.mem_cons_self, h2⟩, by simp [rest]⟩⟩
    rcases List.mem_cons.1 h with rfl | h
    · omega
    · have := (List.pairwise_cons.1 hm).1 a h; omega
  | case4 a as b bs h1 h2 hs ih => exact absurd rfl hs
  | case5 a as b bs h1 h2 ih =>
    have e : a = b := by omega
    subst e
    rcases ih (List.pairwise_cons.1 hl).2 hm with ⟨e, h⟩ | ⟨x, ⟨pre, post, e, hx, hp⟩, h⟩
    · exact Or.inl ⟨e, fun y hy => by
        rcases List.mem_cons.1 hy with rfl | hy
        · exact List.mem_cons_self
        · exact h y hy⟩
    · refine Or.inr ⟨x, ⟨a :: pre, post, by simp [e], hx, fun y hy => ?_⟩, h⟩
      rcases List.mem_cons.1 hy with rfl | hy
      · exact List.mem_cons_self
      · exact hp y hy
  | case6 a as b bs h1 ih =>
    have hb : ∀ x ∈ a :: as, b < x := fun x hx => by
      rcases List.mem_cons.1 hx with rfl | hx
      · omega
      · have := (List.pairwise_cons.1 hl).1 x hx; omega
    rcases ih hl (List.pairwise_cons.1 hm).2 with ⟨e, h⟩ | ⟨x, ⟨pre, post, e, hx, hp⟩, h⟩
    · exact Or.inl ⟨e, fun y hy => List.mem_cons_of_mem _ (h y hy)⟩
    · have hbx : b < x := hb x (e ▸ by simp)
      refine Or.inr ⟨x, ⟨pre, post, e, fun h => ?_, fun y hy => List.mem_cons_of_mem _ (hp y hy)⟩, ?_⟩
      · rcases List.mem_cons.1 h with rfl | h
        · omega
        · exact hx h
      · rcases h with ⟨⟨c, hc, hlt⟩, h⟩ | ⟨hall, h⟩
        · exact Or.inl ⟨⟨c, List.mem_cons_of_mem _ hc, hlt⟩, h⟩
        · refine Or.inr ⟨fun c hc => ?_, h⟩
          rcases List.mem_cons.1 hc with rfl | hc
          · exact hbx
          · exact hall c hc

/-- **C111 (all values).** For both columns of both tables: the values written are exactly those of the column that are not in the other column, in their order. -/
theorem C111_notin {t o : Table} {c d : Nat} {l m : List Nat} (h : Has t c l) (g : Has o d m) : columnNotIn t c o d false = .wrote (l.filter fun x => decide (x ∉ m)) := by
  rw [call_of_has h g, merge_all l m h.2.2 g.2.2]

/-- **C111 (first value, part).** With `stopAfterFirst`, nothing is written if all values are in the other column.  Otherwise no value is written but the first that is not there.
Missing: that it is written once (`C111_first_violated`). -/
theorem C111_first_partial {t o : Table} {c d : Nat} {l m : List Nat} (h : Has t c l) (g : Has o d m) :
    ∃ out, columnNotIn t c o d true = .wrote out ∧ (out = [] ↔ ∀ y ∈ l, y ∈ m) ∧ ∀ x ∈ out, FirstNotIn l m x := by
  refine ⟨_, call_of_has h g true, ?_, ?_⟩ <;> rcases merge_stop l m h.2.2 g.2.2 with ⟨e, hall⟩ | ⟨x, hx, hw⟩
  · simp only [e, true_iff]; exact hall
  · have hne : merge true l m ≠ [] := by rcases hw with ⟨_, e⟩ | ⟨_, e⟩ <;> simp [e]
    obtain ⟨pre, post, e, hn, _⟩ := hx
    exact ⟨fun h => absurd h hne, fun h => absurd (h x (e ▸ by simp)) hn⟩
  · simp [e]
  · intro y hy
    have : y = x := by rcases hw with ⟨_, e⟩ | ⟨_, e⟩ <;> simpa [e] using hy
    exact this ▸ hx

theorem firstNotIn_unique {l m : List Nat} {x y : Nat} (h : FirstNotIn l m x) (g : FirstNotIn l m y) : x = y := by
  obtain ⟨p, q, e, hx, hp⟩ := h
  obtain ⟨p', q', e', hy, hp'⟩ := g
  subst e
  rcases List.append_eq_append_iff.1 e' with ⟨r, hr, h2⟩ | ⟨r, hr, h2⟩
  · rcases r with _ | ⟨z, r⟩
    · simp at h2; exact h2.1
    · simp only [List.cons_append, List.cons.injEq] at h2
      exact absurd (hp' x (by rw [hr, h2.1]; simp)) hx
  · rcases r with _ | ⟨z, r⟩
    · simp at h2; exact h2.1.symm
    · simp only [List.cons_append, List.cons.injEq] at h2
      exact absurd (hp y (by rw [hr, h2.1]; simp)) hy

/-- **C111 (first value, violated).** If the other column has a larger value, the first value that is not in it is written twice; otherwise it is written once. -/
theorem C111_first_violated {t o : Table} {c d : Nat} {l m : List Nat} {x : Nat} (h : Has t c l) (g : Has o d m) (hx : FirstNotIn l m x) :
    ((∃ b ∈ m, x < b) → columnNotIn t c o d true = .wrote [x, x]) ∧ ((∀ b ∈ m, b < x) → columnNotIn t c o d true = .wrote [x]) := by
  rw [call_of_has h g true]
  rcases merge_stop l m h.2.2 g.2.2 with ⟨e, hall⟩ | ⟨y, hy, hw⟩
  · obtain ⟨pre, post, e', hn, _⟩ := hx
    exact absurd (hall x (e' ▸ by simp)) hn
  · have := firstNotIn_unique hx hy
    subst this
    refine ⟨fun ⟨b, hb, hlt⟩ => ?_, fun hall => ?_⟩
    · rcases hw with ⟨_, e⟩ | ⟨ha, _⟩
      · rw [e]
      · have := ha b hb; omega
    · rcases hw with ⟨⟨b, hb, hlt⟩, _⟩ | ⟨_, e⟩
      · have := hall b hb; omega
      · rw [e]

/-- **C111 (other columns).** Any other number of a column is refused. -/
theorem C111_other {t o : Table} {c d : Nat} (stop : Bool) (h : (c ≠ 1 ∧ c ≠ 2) ∨ (d ≠ 1 ∧ d ≠ 2)) : columnNotIn t c o d stop = .throws := by
  have key : ∀ (t : Table) {c}, c ≠ 1 ∧ c ≠ 2 → t.column c = none := fun t c h => by
    unfold Table.column
    split
    · exact absurd rfl h.1
    · exact absurd rfl h.2
    · rfl
  unfold columnNotIn
  rcases h with h | h
  · rw [key t h]
  · rw [key o h]
    split
    · rename_i h; cases h
    · rfl

/-! ## Examples -/

def exT : Table := ⟨[1, 3, 4, 7], [2, 2, 5]⟩
def exO : Table := ⟨[3, 5], [1, 3, 4]⟩

example : columnNotIn exT 1 exO 1 false = .wrote [1, 4, 7] := by
  rw [C111_notin (l := [1, 3, 4, 7]) (m := [3, 5]) ⟨Or.inl ⟨rfl, rfl⟩, by simp, by decide⟩ ⟨Or.inl ⟨rfl, rfl⟩, by simp, by decide⟩]
  decide +kernel

example : columnNotIn exT 2 exO 1 false = .wrote [2, 2] := by
  rw [C111_notin (l := [2, 2, 5]) (m := [3, 5]) ⟨Or.inr ⟨rfl, rfl⟩, by simp, by decide⟩ ⟨Or.inl ⟨rfl, rfl⟩, by simp, by decide⟩]
  decide +kernel

/-- The value 1 is written twice. -/
example : columnNotIn exT 1 exO 1 true = .wrote [1, 1] :=
  (C111_first_violated (l := [1, 3, 4, 7]) (m := [3, 5]) ⟨Or.inl ⟨rfl, rfl⟩, by simp, by decide⟩ ⟨Or.inl ⟨rfl, rfl⟩, by simp, by decide⟩ ⟨[], [3, 4, 7], rfl, by decide, by simp⟩).1 ⟨3, by simp, by decide⟩

/-- The value 7 is written once. -/
example : columnNotIn exT 1 exO 2 true = .wrote [7] :=
  (C111_first_violated (l := [1, 3, 4, 7]) (m := [1, 3, 4]) ⟨Or.inl ⟨rfl, rfl⟩, by simp, by decide⟩ ⟨Or.inr ⟨rfl, rfl⟩, by simp, by decide⟩ ⟨[1, 3, 4], [], rfl, by decide, by decide⟩).2 (by decide)

example : ∃ out, columnNotIn exT 2 exO 2 true = .wrote out ∧ (out = [] ↔ ∀ y ∈ exT.seconds, y ∈ exO.seconds) ∧ ∀ x ∈ out, FirstNotIn exT.seconds exO.seconds x :=
  C111_first_partial ⟨Or.inr ⟨rfl, rfl⟩, by simp [exT], by decide⟩ ⟨Or.inr ⟨rfl, rfl⟩, by simp [exO], by decide⟩

example : columnNotIn exT 3 exO 1 false = .throws := C111_other _ (Or.inl ⟨by decide, by decide⟩)

end Trident.NotIn
