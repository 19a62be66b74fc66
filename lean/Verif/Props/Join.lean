import Verif.Join.SortEx
/-!
# C46: the hash join returns the join of its inputs

`combos`, `consistent`, `solutions` and `varsOf` in `Verif/Join/Spec.lean` say what a join is: all ways to take one row of each input so that no variable
gets two values.  `hashJoin` models `HashJoin` with the plan of `JoinPlan::prepare`.

The full statement, that this holds for all inputs and all projections, is false: see the `_violated` theorems.
-/
namespace Trident.Join

/-- **C46**, for two or more inputs of which each after the first shares one or two variables with those before it, and a projection that either is
absent or keeps, of the new variables of the last input, the first ones: the join does not fail, and the rows it returns are the join of the inputs, with
multiplicities, in any order.  `srt` is `std::sort`, of which only that it sorts is known. -/
theorem C46_join_partial {srt : (Nat → List Nat) → List Nat → List Nat} (hs : SortsKeys srt) {proj : List Nat} {c : Child} {cs : List Child} (hne : cs ≠ [])
    (hok : ∀ d ∈ c :: cs, d.Ok) (hj : Joinable c.fields cs) (hp : ProjFits proj c.fields cs) :
    ∃ out, hashJoin srt (c :: cs) proj = some out ∧
      out.Perm ((solutions (c :: cs)).map fun b => (if proj = [] then varsOf (c :: cs) else proj).map (value b)) :=
  hashJoin_spec hs hne hok hj hp

/-- Three inputs; the second shares one variable with the first, the third two with the first two. -/
def exA : Child := ⟨[0, 1], [[1, 2], [1, 3], [4, 2], [1, 2]]⟩
def exB : Child := ⟨[1, 2], [[2, 7], [3, 8], [2, 9], [5, 5]]⟩
def exC : Child := ⟨[2, 0, 3, 4], [[7, 1, 6, 1], [8, 1, 6, 2], [9, 4, 5, 3], [9, 1, 5, 4]]⟩

theorem ex_ok : ∀ d ∈ [exA, exB, exC], d.Ok := by
  intro d hd
  simp only [List.mem_cons, List.not_mem_nil, or_false] at hd
  rcases hd with rfl | rfl | rfl <;> exact ⟨by decide, by decide, by decide⟩

theorem ex_joinable : Joinable exA.fields [exB, exC] := ⟨.inl (by decide), .inr (by decide), trivial⟩

/-- The hypotheses of `C46_join_partial` hold for three inputs with repeated rows, without and with a projection … -/
example : ∃ out, hashJoin insSort [exA, exB, exC] [] = some out ∧
    out.Perm ((solutions [exA, exB, exC]).map fun b => (if ([] : List Nat) = [] then varsOf [exA, exB, exC] else []).map (value b)) :=
  C46_join_partial insSort_sorts (by simp) ex_ok ex_joinable (.inl rfl)

example : ∃ out, hashJoin insSort [exA, exB, exC] [3, 1] = some out ∧
    out.Perm ((solutions [exA, exB, exC]).map fun b => (if [3, 1] = [] then varsOf [exA, exB, exC] else [3, 1]).map (value b)) :=
  C46_join_partial insSort_sorts (by simp) ex_ok ex_joinable (.inr ⟨by decide, ⟨[4], by decide⟩⟩)

/-- … and these are the rows. -/
example : hashJoin insSort [exA, exB, exC] [] = some [[1, 2, 7, 6, 1], [1, 2, 7, 6, 1], [1, 3, 8, 6, 2], [4, 2, 9, 5, 3], [1, 2, 9, 5, 4], [1, 2, 9, 5, 4]] := by
  decide +kernel

/-- **C46** fails for a projection that skips a new variable of the last input: only the projected columns of the last input are in the list of columns
to copy, but the positions of the output are computed as if all were.  Here the columns of the last input are `1, 2, 3`, and only `3` is asked for:
there is one solution, and the code reads beyond the end of the list. -/
theorem C46_projection_violated : ∃ srt cs proj, SortsKeys srt ∧ (∀ d ∈ cs, d.Ok) ∧ (∀ v ∈ proj, v ∈ varsOf cs) ∧ (∀ c ∈ cs.head?, Joinable c.fields cs.tail) ∧
    (solutions cs).map (fun b => proj.map (value b)) = [[5]] ∧ hashJoin srt cs proj = none := by
  refine ⟨insSort, [⟨[0, 1], [[9, 2]]⟩, ⟨[1, 2, 3], [[2, 4, 5]]⟩], [3], insSort_sorts, ?_, by decide, ?_, by decide +kernel, by decide +kernel⟩
  · intro d hd
    simp only [List.mem_cons, List.not_mem_nil, or_false] at hd
    rcases hd with rfl | rfl <;> exact ⟨by decide, by decide, by decide⟩
  · intro c hc
    simp only [List.head?_cons, Option.mem_def, Option.some.injEq] at hc
    subst hc
    exact ⟨.inl (by decide), trivial⟩

/-- **C46** fails for inputs without a common variable, and for inputs with three: the code has no case for them. -/
theorem C46_shared_violated : ∃ srt, SortsKeys srt ∧
    (∃ cs, (∀ d ∈ cs, d.Ok) ∧ solutions cs ≠ [] ∧ hashJoin srt cs [] = none ∧ ∀ c ∈ cs.head?, ∀ d ∈ cs.tail, common c.fields d.fields = []) ∧
    ∃ cs, (∀ d ∈ cs, d.Ok) ∧ solutions cs ≠ [] ∧ hashJoin srt cs [] = none ∧ ∀ c ∈ cs.head?, ∀ d ∈ cs.tail, (common c.fields d.fields).length = 3 := by
  refine ⟨insSort, insSort_sorts, ⟨[⟨[0], [[9]]⟩, ⟨[1], [[2]]⟩], ?_, by decide +kernel, by decide +kernel, by decide⟩,
    ⟨[⟨[0, 1, 2], [[9, 8, 7]]⟩, ⟨[0, 1, 2], [[9, 8, 7]]⟩], ?_, by decide +kernel, by decide +kernel, by decide⟩⟩
  all_goals
    intro d hd
    simp only [List.mem_cons, List.not_mem_nil, or_false] at hd
    rcases hd with rfl | rfl <;> exact ⟨by decide, by decide, by decide⟩

end Trident.Join
