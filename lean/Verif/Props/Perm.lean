import Verif.Query.Perm
/-! # C20: the chosen index has the bound positions first -/
namespace Trident

/-- How a pattern is passed to the querier: a free position is `-1`. -/
def argOfPos (v : Option Int) : Int := v.getD (-1)

/-- Terms are natural numbers. -/
def Pattern.Wf (q : Pattern) : Prop := ∀ x, ∀ v ∈ q.at x, 0 ≤ v

/-- C20: for every pattern the chosen index is one of the six orders, and in it no fixed position
comes after a free one. -/
theorem C20_bound_first (q : Pattern) (hq : q.Wf) :
    ∃ d : Order, getIndex (argOfPos q.s) (argOfPos q.p) (argOfPos q.o) = d.idx ∧
      ((q.at d.positions.2.1).isSome → (q.at d.positions.1).isSome) ∧
      ((q.at d.positions.2.2).isSome → (q.at d.positions.2.1).isSome) := by
  obtain ⟨s, p, o⟩ := q
  have hs := hq .s
  have hp := hq .p
  have ho := hq .o
  simp only [Pattern.at, Option.mem_def] at hs hp ho
  cases s with
  | some s =>
    have := hs s rfl
    cases p with
    | some p =>
      have := hp p rfl
      exact ⟨.spo, by simp [getIndex, argOfPos, Order.idx, *], by simp [Order.positions, Pattern.at]⟩
    | none =>
      refine ⟨.sop, by simp [getIndex, argOfPos, Order.idx, *], by simp [Order.positions, Pattern.at]⟩
  | none =>
    cases o with
    | some o =>
      have := ho o rfl
      cases p with
      | some p =>
        have := hp p rfl
        exact ⟨.ops, by simp [getIndex, argOfPos, Order.idx, *], by simp [Order.positions, Pattern.at]⟩
      | none =>
        refine ⟨.osp, by simp [getIndex, argOfPos, Order.idx, *], by simp [Order.positions, Pattern.at]⟩
    | none =>
      cases p with
      | some p =>
        have := hp p rfl
        exact ⟨.pso, by simp [getIndex, argOfPos, Order.idx, *], by simp [Order.positions, Pattern.at]⟩
      | none =>
        refine ⟨.spo, by simp [getIndex, argOfPos, Order.idx], by simp [Order.positions, Pattern.at]⟩

/-- C20: the chosen index is one of the six whatever markers (`-1` free, `-2` join, others) are
passed, and never puts a free or join position before a fixed one. -/
theorem C20_bound_first_joins (s p o : Int) :
    ∃ d : Order, getIndex s p o = d.idx ∧
      ∀ x y z, permute (getIndex s p o) s p o = (x, y, z) → (0 ≤ y → 0 ≤ x) ∧ (0 ≤ z → 0 ≤ y) := by
  by_cases hs : s ≥ 0 <;> by_cases hp : p ≥ 0 <;> by_cases ho : o ≥ 0 <;>
    simp only [getIndex, hs, hp, ho, if_true, if_false, true_or, false_or] <;>
    (repeat' split) <;>
    first
      | exact ⟨.spo, rfl, by rintro _ _ _ ⟨⟩; omega⟩
      | exact ⟨.ops, rfl, by rintro _ _ _ ⟨⟩; omega⟩
      | exact ⟨.pos, rfl, by rintro _ _ _ ⟨⟩; omega⟩
      | exact ⟨.sop, rfl, by rintro _ _ _ ⟨⟩; omega⟩
      | exact ⟨.osp, rfl, by rintro _ _ _ ⟨⟩; omega⟩
      | exact ⟨.pso, rfl, by rintro _ _ _ ⟨⟩; omega⟩

/-- C20: the querier permutes a triple to key and values exactly as the name of the index says. -/
theorem C20_permute (d : Order) (t : Triple) : permute d.idx t.s t.p t.o = d.row t := by
  cases d <;> rfl

/-- C20: permuting to an index and back is the identity, both ways. -/
theorem C20_roundtrip (d : Order) (a b c : Int) :
    (let x := permute d.idx a b c; unpermute d.idx x.1 x.2.1 x.2.2 = (a, b, c)) ∧
    (let x := unpermute d.idx a b c; permute d.idx x.1 x.2.1 x.2.2 = (a, b, c)) := by
  cases d <;> exact ⟨rfl, rfl⟩

/-- C20: the order arrays name the positions of the index, and the inverse arrays invert them:
`getOrder(idx)[i]` is the position of the `i`-th element, and reading a permuted triple through
`getInvOrder(idx)` gives subject, predicate and object. -/
theorem C20_order_arrays (d : Order) (t : Triple) :
    (getOrder d.idx).map (fun i => [t.s, t.p, t.o].getD i 0) = [d.key t, (d.pair t).1, (d.pair t).2] ∧
    (getInvOrder d.idx).map (fun i => [d.key t, (d.pair t).1, (d.pair t).2].getD i 0) = [t.s, t.p, t.o] := by
  cases d <;> exact ⟨rfl, rfl⟩

/-- C20: a triple is determined by its row in any order. -/
theorem C20_injective (d : Order) (t u : Triple) (h : d.row t = d.row u) : t = u := by
  obtain ⟨a, b, c⟩ := t
  obtain ⟨a', b', c'⟩ := u
  cases d <;> simp [Order.row, Order.key, Order.pair, Order.positions, Triple.at] at h <;>
    simp [h]

/-- A pattern with a fixed predicate and object: the index is OPS, with both fixed positions first. -/
example : getIndex (-1) 7 5 = Order.ops.idx ∧ permute Order.ops.idx (-1) 7 5 = (5, 7, -1) := ⟨rfl, rfl⟩

end Trident
