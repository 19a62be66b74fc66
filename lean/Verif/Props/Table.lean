import Verif.Join.TableProofs
/-!
# C62 to C64: tables of tuples

`Tab.make sig rows` is a table with named columns and rows.  `Le` is the order of rows, column by column.
-/
namespace Trident.Join.Table
open Trident Join

/-! ## C62: union and difference -/

/-- **C62**, union: of two sorted tables, the result is sorted and has each row as often as the table that has it more often. -/
theorem C62_merge (t u : Tab) (ht : ∀ r ∈ t.rows, r.length = t.size) (hu : ∀ r ∈ u.rows, r.length = t.size) (st : t.rows.Pairwise Le) (su : u.rows.Pairwise Le) :
    (t.merge u).rows.Pairwise Le ∧ ∀ r, (t.merge u).rows.count r = max (t.rows.count r) (u.rows.count r) := by
  exact mergeLoop_spec (w := t.size) (A := t.rows) (B := u.rows) rfl rfl (by omega) ht hu st su

/-- **C62**, union: a row is in the result exactly if it is in one of the tables. -/
theorem C62_union (t u : Tab) (ht : ∀ r ∈ t.rows, r.length = t.size) (hu : ∀ r ∈ u.rows, r.length = t.size) (st : t.rows.Pairwise Le) (su : u.rows.Pairwise Le) (r : Row) :
    r ∈ (t.merge u).rows ↔ r ∈ t.rows ∨ r ∈ u.rows := by
  rw [← List.count_pos_iff, (C62_merge t u ht hu st su).2, ← List.count_pos_iff, ← List.count_pos_iff]
  omega

/-- **C62**, difference, for any tables: no row that is only in the first table is lost, and no row is invented. -/
theorem C62_retain_partial (t u : Tab) (ht : ∀ r ∈ t.rows, r.length = t.size) (hu : ∀ r ∈ u.rows, r.length = t.size) (r : Row) :
    (r ∈ (t.retain u).rows → r ∈ t.rows) ∧ (r ∈ t.rows → r ∉ u.rows → r ∈ (t.retain u).rows) := by
  obtain ⟨h1, h2⟩ := retainLoop_spec (w := t.size) (n := t.rows.length + u.rows.length + 1) (p := none) (h1 := none) (h2 := none) (l1 := t.rows) (l2 := u.rows)
    (by omega) (.inl rfl) ht hu (by simp)
  refine ⟨h1 r, fun hr hn => ?_⟩
  rcases h2 r hr with h | h | ⟨h, -⟩
  · exact h
  · exact absurd h hn
  · cases h

/-- **C62**, difference, of sorted tables of which the last row is not in the other one: exactly the rows that are only in the first table. -/
theorem C62_difference_partial (t u : Tab) (ht : ∀ r ∈ t.rows, r.length = t.size) (hu : ∀ r ∈ u.rows, r.length = t.size) (st : t.rows.Pairwise Le) (su : u.rows.Pairwise Le)
    (h1 : ∀ r, t.rows.getLast? = some r → r ∉ u.rows) (h2 : ∀ r, u.rows.getLast? = some r → r ∉ t.rows) (r : Row) :
    r ∈ (t.retain u).rows ↔ r ∈ t.rows ∧ r ∉ u.rows := by
  refine ⟨fun h => ⟨(C62_retain_partial t u ht hu r).1 h, ?_⟩, fun h => (C62_retain_partial t u ht hu r).2 h.1 h.2⟩
  by_cases e1 : t.rows = []
  · have := (C62_retain_partial t u ht hu r).1 h
    rw [e1] at this
    simp at this
  by_cases e2 : u.rows = []
  · rw [e2]
    simp
  have hy := List.getLast?_eq_some_getLast e1
  have hz := List.getLast?_eq_some_getLast e2
  generalize t.rows.getLast e1 = y at hy
  generalize u.rows.getLast e2 = z at hz
  refine retainLoop_exact (w := t.size) (y := y) (z := z) (B0 := u.rows) (h1 y hy) (A := t.rows) (B := u.rows) rfl rfl (by omega) (.inl rfl) ht hu (by simp) st su (by simp)
    ?_ ?_ ?_ (fun r _ h0 => .inl h0) r h
  · rintro r hr rfl
    exact h2 r hz hr
  · intro r hr
    rw [hy] at hr
    exact (Option.some.inj hr).symm
  · intro r hr
    rw [hz] at hr
    exact (Option.some.inj hr).symm

/-- **C62** fails for differences when the second table ends first: of `{1, 2}` without `{2}`, `2` is kept. -/
theorem C62_difference_violated : ((Tab.make [0] [[1], [2]]).retain (Tab.make [0] [[2]])).rows = [[1], [2]] := by decide

/-- **C62** also fails when the first table ends first: of `{2}` without `{1, 2, 3}`, `2` is kept. -/
theorem C62_difference_first_violated : ((Tab.make [0] [[2]]).retain (Tab.make [0] [[1], [2], [3]])).rows = [[2]] := by decide

/-- The union and the difference say of themselves that they are empty, whatever rows they have. -/
theorem C62_empty_violated (t u : Tab) : (t.merge u).empty = true ∧ (t.retain u).empty = true := ⟨rfl, rfl⟩

example : let t := Tab.make [0, 1] [[1, 5], [2, 1], [2, 1], [3, 0]]
    let u := Tab.make [0, 1] [[0, 9], [2, 1], [3, 1]]
    (∀ r ∈ t.rows, r.length = t.size) ∧ (∀ r ∈ u.rows, r.length = t.size) ∧ (t.rows.Pairwise fun a b => cmpL a b ≠ .gt) ∧ (u.rows.Pairwise fun a b => cmpL a b ≠ .gt) ∧
      (∀ r ∈ t.rows.getLast?, r ∉ u.rows) ∧ (∀ r ∈ u.rows.getLast?, r ∉ t.rows) ∧
      (t.merge u).rows = [[0, 9], [1, 5], [2, 1], [2, 1], [3, 0], [3, 1]] ∧ (t.retain u).rows = [[1, 5], [3, 0]] := by decide

/-! ## C63: the join of tables -/

/-- The columns two tables are joined on, as positions in the first and in the second table. -/
def on (t u : Tab) : List Nat × List Nat := ((joinFields t.sig u.sig).map Prod.fst, (joinFields t.sig u.sig).map Prod.snd)

/-- **C63**, for tables that are sorted by the columns they share: the join has a row for each pair of rows that agree on these columns. -/
theorem C63_join_partial (t u : Tab) (ht : t.Ok) (hu : u.Ok) (h1 : t.sig ≠ []) (h2 : u.sig ≠ []) (h8 : (joinFields t.sig u.sig).length ≤ 8)
    (s1 : t.rows.Pairwise fun a b => Le (pick (on t u).1 a) (pick (on t u).1 b)) (s2 : u.rows.Pairwise fun a b => Le (pick (on t u).2 a) (pick (on t u).2 b)) :
    t.join u = some (Tab.make (t.sig ++ fresh t.sig u.sig)
      ((solutions [⟨t.sig, t.rows⟩, ⟨u.sig, u.rows⟩]).map fun b => (t.sig ++ fresh t.sig u.sig).map (value b))) := by
  unfold Tab.join
  rw [if_neg (by simp [h1, h2])]
  by_cases hj : joinFields t.sig u.sig = []
  · simp only [hj, if_true]
    rw [product_solutions ht.nodup hu.nodup ht.rows hu.rows hj]
    congr 2
    rw [joinFields_nil hj]
  · simp only [hj, if_false]
    rw [if_neg (by omega), hu.size, copied_names,
      mjoin_solutions ht.nodup hu.nodup ht.rows hu.rows s1 s2 _ (fun b => (t.sig ++ fresh t.sig u.sig).map (value b))
        fun a ha b hb => copied_row ht.nodup hu.nodup (ht.rows a ha) (hu.rows b hb)]

/-- **C63**, the predicted number of rows is the number of rows of the join. -/
theorem C63_size_partial (t u : Tab) (ht : t.Ok) (hu : u.Ok) (h1 : t.sig ≠ []) (h2 : u.sig ≠ []) (h8 : (joinFields t.sig u.sig).length ≤ 8)
    (hs : ∃ v ∈ t.sig, v ∈ u.sig)
    (s1 : t.rows.Pairwise fun a b => Le (pick (on t u).1 a) (pick (on t u).1 b)) (s2 : u.rows.Pairwise fun a b => Le (pick (on t u).2 a) (pick (on t u).2 b)) :
    t.hits u = some (solutions [⟨t.sig, t.rows⟩, ⟨u.sig, u.rows⟩]).length := by
  unfold Tab.hits
  rw [if_neg (by simp [h1, h2])]
  have hj : joinFields t.sig u.sig ≠ [] := by
    intro h
    obtain ⟨v, a, b⟩ := hs
    have := joinFields_nil h
    rw [← this] at b
    have := (List.mem_filter.1 b).2
    simp only [decide_eq_true_eq] at this
    exact this a
  simp only
  rw [if_neg (by simp only [hj, false_or]; omega)]
  have := mjoin_solutions ht.nodup hu.nodup ht.rows hu.rows s1 s2 (fun _ _ => ()) (fun _ => ()) (fun _ _ _ _ => rfl)
  unfold on at *
  rw [this, List.length_map]

/-- A sort of rows by some fields. -/
def Sorts (srt : (Row → List Nat) → List Row → List Row) : Prop :=
  ∀ fs l, (srt (pick fs) l).Perm l ∧ ((srt (pick fs) l).Pairwise fun a b => Le (pick fs a) (pick fs b))

theorem C63_sortBy_partial {srt : (Row → List Nat) → List Row → List Row} (hs : Sorts srt) (t : Tab) (fs : List Nat) (h8 : fs.length ≤ 8) :
    ∃ t', t.sortBy srt fs = some t' ∧ t'.sig = t.sig ∧ t'.size = t.size ∧ t'.rows.Perm t.rows ∧ t'.rows.Pairwise fun a b => Le (pick fs a) (pick fs b) := by
  unfold Tab.sortBy
  rw [if_neg (by omega)]
  exact ⟨_, rfl, rfl, rfl, (hs _ _).1, (hs _ _).2⟩

/-- **C63**: any two tables that are sorted with `sortBy` first are joined correctly. -/
theorem C63_sort_then_join {srt : (Row → List Nat) → List Row → List Row} (hs : Sorts srt) (t u : Tab) (ht : t.Ok) (hu : u.Ok) (h1 : t.sig ≠ []) (h2 : u.sig ≠ [])
    (h8 : (joinFields t.sig u.sig).length ≤ 8) :
    ∃ t' u' out, t.sortBy srt (on t u).1 = some t' ∧ u.sortBy srt (on t u).2 = some u' ∧ t'.join u' = some out ∧ out.sig = t.sig ++ fresh t.sig u.sig ∧
      out.rows.Perm ((solutions [⟨t.sig, t.rows⟩, ⟨u.sig, u.rows⟩]).map fun b => (t.sig ++ fresh t.sig u.sig).map (value b)) := by
  obtain ⟨t', a1, a2, a3, a4, a5⟩ := C63_sortBy_partial hs t (on t u).1 (by simp [on]; exact h8)
  obtain ⟨u', b1, b2, b3, b4, b5⟩ := C63_sortBy_partial hs u (on t u).2 (by simp [on]; exact h8)
  have ht' : t'.Ok := ⟨a2 ▸ ht.nodup, by rw [a3, a2, ht.size], fun r hr => by rw [a2]; exact ht.rows r (a4.mem_iff.1 hr)⟩
  have hu' : u'.Ok := ⟨b2 ▸ hu.nodup, by rw [b3, b2, hu.size], fun r hr => by rw [b2]; exact hu.rows r (b4.mem_iff.1 hr)⟩
  have hon : on t' u' = on t u := by unfold on; rw [a2, b2]
  have := C63_join_partial t' u' ht' hu' (a2 ▸ h1) (b2 ▸ h2) (by rw [a2, b2]; exact h8) (by rw [hon]; exact a5) (by rw [hon]; exact b5)
  refine ⟨t', u', _, a1, b1, this, by simp [Tab.make, a2, b2], ?_⟩
  simp only [Tab.make, a2, b2]
  refine List.Perm.map _ ?_
  rw [solutions_two, solutions_two]
  refine (perm_flatMap_congr (G := fun a => (u.rows.filter fun b => consistent (t.sig.zip a ++ u.sig.zip b)).map fun b => t.sig.zip a ++ u.sig.zip b) ?_).trans ?_
  · intro a _
    exact (b4.filter _).map _
  · exact a4.flatMap_right _

/-- **C63** fails for tables that are not sorted: the join sorts copies of them and then reads the tables themselves. -/
theorem C63_unsorted_violated : ((Tab.make [0] [[2], [1]]).join (Tab.make [0] [[1]])).map Tab.rows = some [] ∧ solutions [⟨[0], [[2], [1]]⟩, ⟨[0], [[1]]⟩] = [[(0, 1), (0, 1)]] ∧
    (Tab.make [0] [[2], [1]]).hits (Tab.make [0] [[1]]) = some 0 := by decide

/-- A sort, for the examples. -/
def insRow (k : Row → List Nat) (a : Row) : List Row → List Row
  | [] => [a]
  | b :: l => if cmpL (k a) (k b) = .gt then b :: insRow k a l else a :: b :: l

def sortRows (k : Row → List Nat) : List Row → List Row
  | [] => []
  | a :: l => insRow k a (sortRows k l)

theorem insRow_perm (k : Row → List Nat) (a : Row) : ∀ l, (insRow k a l).Perm (a :: l)
  | [] => .refl _
  | b :: l => by
    unfold insRow
    by_cases h : cmpL (k a) (k b) = .gt
    · rw [if_pos h]
      exact ((insRow_perm k a l).cons b).trans (.swap a b l)
    · rw [if_neg h]

/-- There is such a sort. -/
theorem sortRows_sorts : Sorts sortRows := by
  intro fs l
  have hle : ∀ {a b c : Row}, Le (pick fs a) (pick fs b) → Le (pick fs b) (pick fs c) → Le (pick fs a) (pick fs c) := by
    intro a b c h1 h2
    cases h : cmpL (pick fs b) (pick fs c) with
    | lt =>
      have := le_lt (n := fs.length) (by simp [pick]) (by simp [pick]) (by simp [pick]) h1 h
      unfold Le
      rw [this]
      decide
    | eq =>
      rw [← (cmpL_eq (by simp [pick])).1 h]
      exact h1
    | gt => exact absurd h h2
  induction l with
  | nil => exact ⟨.refl _, .nil⟩
  | cons a l ih =>
    refine ⟨(insRow_perm _ a _).trans (ih.1.cons a), ?_⟩
    show (insRow (pick fs) a (sortRows (pick fs) l)).Pairwise _
    generalize sortRows (pick fs) l = m at ih
    have hm := ih.2
    clear ih
    induction m with
    | nil => simp [insRow]
    | cons b m ihm =>
      have hm' := List.pairwise_cons.1 hm
      unfold insRow
      by_cases h : cmpL (pick fs a) (pick fs b) = .gt
      · rw [if_pos h]
        refine List.pairwise_cons.2 ⟨?_, ihm hm'.2⟩
        intro x hx
        rcases List.mem_cons.1 ((insRow_perm _ a m).mem_iff.1 hx) with rfl | hx'
        · unfold Le
          rw [cmpL_swap.1 h]
          decide
        · exact hm'.1 x hx'
      · rw [if_neg h]
        refine List.pairwise_cons.2 ⟨?_, hm⟩
        intro x hx
        rcases List.mem_cons.1 hx with rfl | hx'
        · exact h
        · exact hle h (hm'.1 x hx')

example : let t := Tab.make [0, 1] [[1, 5], [1, 7], [2, 6]]
    let u := Tab.make [2, 0] [[8, 1], [9, 1], [4, 2]]
    t.sig.Nodup ∧ u.sig.Nodup ∧ (joinFields t.sig u.sig).length ≤ 8 ∧
      (t.rows.Pairwise fun a b => cmpL (pick (on t u).1 a) (pick (on t u).1 b) ≠ .gt) ∧ (u.rows.Pairwise fun a b => cmpL (pick (on t u).2 a) (pick (on t u).2 b) ≠ .gt) ∧
      (t.join u).map Tab.rows = some [[1, 5, 8], [1, 5, 9], [1, 7, 8], [1, 7, 9], [2, 6, 4]] ∧ t.hits u = some 5 := by decide

/-! ## C64: the iterator over a table -/

/-- **C64**: the iterator returns the rows of the table, in order. -/
theorem C64_rows (t : Tab) (hs : t.size ≠ 0) (hn : t.rows.length ≤ 2 ^ 32) : Yields (t.itr false) St.start (t.rows.map fun r => (some r, 1)) := by
  have := itr_rows hs hn t.rows.length 0 St.start (by omega) (by simp [St.start]) rfl
  rwa [List.drop_zero] at this

/-- **C64**, with the last column ignored: the first row of each run of rows that agree on the first two columns, with the length of the run. -/
theorem C64_runs (t : Tab) (hs : t.size ≠ 0) (hn : t.rows.length ≤ 2 ^ 32) (o : List (Row × Nat)) (ho : Runs t.rows o) :
    Yields (t.itr true) St.start (o.map fun e => (some e.1, e.2)) := by
  refine itr_runs hs hn ho 0 St.start (List.drop_zero) ⟨⟨-1, true, decide (0 < t.rows.length), 0⟩, rfl, rfl, ?_⟩
  simp only [Tab.itr, St.start, if_neg hs]
  simp

/-- **C64**, tables without columns: one empty row if a row was added. -/
theorem C64_no_columns (rows : List Row) (skip : Bool) : ∃ o, Yields ((Tab.make [] rows).itr skip) St.start o ∧ o.length = min rows.length 1 := by
  match rows with
  | [] => exact ⟨[], yields_nil.2 (by simp [Tab.itr, Tab.make, St.start]), rfl⟩
  | r :: l =>
    refine ⟨_, .step (by simp [Tab.itr, Tab.make, St.start]) (.done (by simp [Tab.itr, Tab.make, St.start])), ?_⟩
    simp

/-- The runs exist. -/
theorem C64_runs_exist (l : List Row) : ∃ o, Runs l o := by
  suffices h : ∀ n (l : List Row), l.length ≤ n → ∃ o, Runs l o from h l.length l (Nat.le_refl _)
  intro n
  induction n with
  | zero =>
    intro l hl
    rw [List.length_eq_zero_iff.1 (by omega : l.length = 0)]
    exact ⟨[], .nil⟩
  | succ n ih =>
    intro l hl
    match l, hl with
    | [], _ => exact ⟨[], .nil⟩
    | r :: l, hl =>
      have hle : (l.dropWhile fun x => decide (Alike r x)).length ≤ l.length := (List.dropWhile_suffix _).length_le
      simp only [List.length_cons] at hl
      obtain ⟨o, ho⟩ := ih (l.dropWhile fun x => decide (Alike r x)) (by omega)
      refine ⟨(r, (l.takeWhile fun x => decide (Alike r x)).length + 1) :: o, ?_⟩
      · have hsplit : r :: l = (r :: l.takeWhile fun x => decide (Alike r x)) ++ l.dropWhile fun x => decide (Alike r x) := by
          rw [List.cons_append, List.takeWhile_append_dropWhile]
        rw [hsplit]
        refine .run ?_ ?_ ho
        · intro x hx
          simpa using takeWhile_imp hx
        · intro x hx
          have := List.head?_dropWhile_not (fun x => decide (Alike r x)) l
          rw [hx] at this
          simpa using this

example : Runs [[1, 5, 2], [1, 5, 3], [1, 6, 0]] [([1, 5, 2], 2), ([1, 6, 0], 1)] :=
  .run (g := [[1, 5, 3]]) (by decide) (by simp [Alike]) (.run (g := []) (by simp) (by simp) .nil)

end Trident.Join.Table
