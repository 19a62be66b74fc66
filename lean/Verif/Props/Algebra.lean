import Verif.Sparql.Algebra
/-!
# C74, C75, C76: MINUS, VALUES, BIND and products

C74: `MINUS` removes the solutions that agree with a solution of the other side on the variables that both bind.
C75: `VALUES` returns the rows of the list, `BIND` adds a column.
C76: patterns without a common variable are combined in all ways.
-/
namespace Trident.Sparql.Spec

/-- The value of a column, if it is bound. -/
def bound (null : Nat) (t : Tup) (i : Nat) : Option Nat :=
  match t[i]? with
  | some v => if v = null then none else some v
  | none => none

/-- Two solutions bind a common variable, and no common variable differently.  A common variable is a pair of columns. -/
def excludes (null : Nat) (common : List (Nat × Nat)) (a b : Tup) : Bool :=
  (common.any fun c => (bound null a c.1).isSome && (bound null b c.2).isSome) &&
  common.all fun c => (bound null a c.1).isNone || (bound null b c.2).isNone || bound null a c.1 == bound null b c.2

/-- MINUS. -/
def minus (null : Nat) (common : List (Nat × Nat)) (main sub : List Row) : List Row :=
  main.filter fun a => !sub.any fun b => excludes null common a.2 b.2

/-- The rows of a list of values for `k` variables. -/
def chunks (k : Nat) (values : List Nat) : List Tup := (List.range (values.length / k)).map fun i => (values.drop (i * k)).take k

/-- All pairs of rows. -/
def product (left right : List Row) : List Row := left.flatMap fun l => right.map fun r => (l.1 * r.1, l.2 ++ r.2)

/-- OPTIONAL without a common variable. -/
def productOptional (null w : Nat) (left right : List Row) : List Row :=
  if right = [] then left.map fun l => (l.1, l.2 ++ List.replicate w null) else product left right

end Trident.Sparql.Spec

namespace Trident.Sparql.Algebra

/-! ## MINUS -/

theorem present_iff {k : Nat} {flat set : List Nat} {row : Tup} : present k flat set row = true ↔ ∃ i ∈ set, (flat.drop (i * k)).take k = row := by
  unfold present
  rw [List.any_eq_true]
  constructor
  · rintro ⟨i, h1, h2⟩; exact ⟨i, h1, by simpa using h2⟩
  · rintro ⟨i, h1, h2⟩; exact ⟨i, h1, by simpa using h2⟩

theorem key_length (cols : List Nat) (t : Tup) : (key cols t).length = cols.length := by simp [key]

/-- After loading, exactly the keys of the rows are present. -/
theorem load_spec (cols : List Nat) (hc : cols ≠ []) (rs : List Row) (flat set : List Nat) (n : Nat) (hn : flat.length = n * cols.length) (hset : ∀ i ∈ set, i < n) :
    ∃ flat' set', load cols rs flat set = some (flat', set') ∧
      ∀ row, present cols.length flat' set' row = true ↔ present cols.length flat set row = true ∨ row ∈ rs.map fun r => key cols r.2 := by
  have hpos : 0 < cols.length := List.length_pos_iff.2 hc
  induction rs generalizing flat set n with
  | nil => exact ⟨flat, set, rfl, by simp⟩
  | cons r rs ih =>
    rw [load]
    by_cases hp : present cols.length flat set (key cols r.2) = true
    · simp only [hp, if_true]
      obtain ⟨f, s, h1, h2⟩ := ih flat set n hn hset
      refine ⟨f, s, h1, ?_⟩
      intro row
      rw [h2, List.map_cons, List.mem_cons]
      constructor
      · rintro (h | h)
        · exact .inl h
        · exact .inr (.inr h)
      · rintro (h | rfl | h)
        · exact .inl h
        · exact .inl hp
        · exact .inr h
    · simp only [Bool.not_eq_true] at hp
      simp only [hp, Bool.false_eq_true, if_false]
      rw [if_neg (by omega)]
      have hidx : flat.length / cols.length = n := by rw [hn]; exact Nat.mul_div_cancel _ hpos
      rw [hidx]
      obtain ⟨f, s, h1, h2⟩ := ih (flat ++ key cols r.2) (n :: set) (n + 1) (by rw [List.length_append, hn, key_length, Nat.succ_mul]) (by
        intro i hi
        rcases List.mem_cons.1 hi with rfl | hi
        · omega
        · have := hset i hi; omega)
      refine ⟨f, s, h1, ?_⟩
      intro row
      rw [h2, List.map_cons, List.mem_cons]
      have hold : ∀ i ∈ set, ((flat ++ key cols r.2).drop (i * cols.length)).take cols.length = (flat.drop (i * cols.length)).take cols.length := by
        intro i hi
        have h3 := hset i hi
        have h4 : (i + 1) * cols.length ≤ n * cols.length := Nat.mul_le_mul_right _ h3
        rw [Nat.succ_mul] at h4
        rw [List.drop_append_of_le_length (by omega), List.take_append_of_le_length (by rw [List.length_drop]; omega)]
      have hnew : ((flat ++ key cols r.2).drop (n * cols.length)).take cols.length = key cols r.2 := by
        rw [← hn, List.drop_left, ← key_length cols r.2, List.take_length]
      have : present cols.length (flat ++ key cols r.2) (n :: set) row = true ↔ present cols.length flat set row = true ∨ row = key cols r.2 := by
        rw [present_iff, present_iff]
        constructor
        · rintro ⟨i, hi, e⟩
          rcases List.mem_cons.1 hi with rfl | hi
          · rw [hnew] at e; exact .inr e.symm
          · rw [hold i hi] at e; exact .inl ⟨i, hi, e⟩
        · rintro (⟨i, hi, e⟩ | e)
          · exact ⟨i, by simp [hi], by rw [hold i hi]; exact e⟩
          · exact ⟨n, by simp, by rw [hnew]; exact e.symm⟩
      rw [this]
      constructor
      · rintro ((h | h) | h)
        · exact .inl h
        · exact .inr (.inl h)
        · exact .inr (.inr h)
      · rintro (h | h | h)
        · exact .inl (.inl h)
        · exact .inl (.inr h)
        · exact .inr h

theorem keep_eq (cols flat set : List Nat) (l : List Row) : keep cols flat set l = l.filter fun r => !present cols.length flat set (key cols r.2) := by
  induction l with
  | nil => rfl
  | cons r l ih =>
    rw [keep, List.filter_cons, ih]
    cases present cols.length flat set (key cols r.2) <;> simp

/-- The columns of the common variables are bound. -/
def AllBound (null : Nat) (cols : List Nat) (l : List Row) : Prop := ∀ r ∈ l, ∀ i ∈ cols, ∃ v, r.2[i]? = some v ∧ v ≠ null

theorem excludes_iff {null : Nat} {common : List (Nat × Nat)} (hc : common ≠ []) {a b : Tup} (ha : ∀ c ∈ common, ∃ v, a[c.1]? = some v ∧ v ≠ null)
    (hb : ∀ c ∈ common, ∃ v, b[c.2]? = some v ∧ v ≠ null) :
    Spec.excludes null common a b = true ↔ key (common.map (·.1)) a = key (common.map (·.2)) b := by
  have hba : ∀ c ∈ common, Spec.bound null a c.1 = some ((a[c.1]?).getD 0) := by
    intro c h
    obtain ⟨v, e, hv⟩ := ha c h
    simp [Spec.bound, e, hv]
  have hbb : ∀ c ∈ common, Spec.bound null b c.2 = some ((b[c.2]?).getD 0) := by
    intro c h
    obtain ⟨v, e, hv⟩ := hb c h
    simp [Spec.bound, e, hv]
  unfold Spec.excludes key
  rw [Bool.and_eq_true, List.all_eq_true, List.any_eq_true, List.map_map, List.map_map, List.map_inj_left]
  constructor
  · rintro ⟨_, h⟩ c hm
    have := h c hm
    rw [hba c hm, hbb c hm] at this
    simpa using this
  · intro h
    refine ⟨?_, ?_⟩
    · match common, hc with
      | c :: cs, _ => exact ⟨c, by simp, by rw [hba c (by simp), hbb c (by simp)]; rfl⟩
    · intro c hm
      rw [hba c hm, hbb c hm]
      have := h c hm
      simp only [Function.comp_apply] at this
      simp [this]

/-- **C74 (MINUS, part).** If there are common variables, and all solutions bind them, the result is right.
Missing, and wrong in the code: no common variables; solutions that do not bind all of them. -/
theorem C74_minus_partial (null : Nat) (common : List (Nat × Nat)) (hc : common ≠ []) (main sub : List Row)
    (hm : AllBound null (common.map (·.1)) main) (hs : AllBound null (common.map (·.2)) sub) :
    minus (common.map (·.1)) (common.map (·.2)) main sub = some (Spec.minus null common main sub) := by
  match main, hm with
  | [], _ => rfl
  | m :: ms, hm =>
    obtain ⟨f, s, h1, h2⟩ := load_spec (common.map (·.2)) (by simpa using hc) sub [] [] 0 (by simp) (by simp)
    have e : minus (common.map (·.1)) (common.map (·.2)) (m :: ms) sub = some (keep (common.map (·.1)) f s (m :: ms)) := by
      unfold minus
      simp only [h1, Option.map_some]
    rw [e, keep_eq]
    congr 1
    unfold Spec.minus
    apply List.filter_congr
    intro a ha
    congr 1
    rw [Bool.eq_iff_iff]
    have hl : (common.map (·.1)).length = (common.map (·.2)).length := by simp
    rw [hl, h2, List.any_eq_true]
    constructor
    · rintro (h | h)
      · rw [present_iff] at h; obtain ⟨i, hi, _⟩ := h; cases hi
      · obtain ⟨b, hb, e⟩ := List.mem_map.1 h
        refine ⟨b, hb, (excludes_iff hc ?_ ?_).2 e.symm⟩
        · exact fun c hcm => hm a ha c.1 (List.mem_map.2 ⟨c, hcm, rfl⟩)
        · exact fun c hcm => hs b hb c.2 (List.mem_map.2 ⟨c, hcm, rfl⟩)
    · rintro ⟨b, hb, e⟩
      refine .inr (List.mem_map.2 ⟨b, hb, ((excludes_iff hc ?_ ?_).1 e).symm⟩)
      · exact fun c hcm => hm a ha c.1 (List.mem_map.2 ⟨c, hcm, rfl⟩)
      · exact fun c hcm => hs b hb c.2 (List.mem_map.2 ⟨c, hcm, rfl⟩)

example : AllBound 0xFFFFFFFF [0, 2] [(1, [1, 7, 5]), (2, [1, 8, 6])] ∧ AllBound 0xFFFFFFFF [1, 0] [(1, [5, 1]), (3, [5, 1]), (1, [9, 9])] ∧
    minus [0, 2] [1, 0] [(1, [1, 7, 5]), (2, [1, 8, 6])] [(1, [5, 1]), (3, [5, 1]), (1, [9, 9])] = some [(2, [1, 8, 6])] := by
  refine ⟨?_, ?_, by decide⟩
  · intro r hr i hi
    simp only [List.mem_cons, List.not_mem_nil, or_false] at hr hi
    rcases hr with rfl | rfl <;> rcases hi with rfl | rfl <;> exact ⟨_, rfl, by decide⟩
  · intro r hr i hi
    simp only [List.mem_cons, List.not_mem_nil, or_false] at hr hi
    rcases hr with rfl | rfl | rfl <;> rcases hi with rfl | rfl <;> exact ⟨_, rfl, by decide⟩

/-- **C74 (no common variable) violated.** Whenever both sides have solutions but no common variable, the program divides by zero, while no solution has to be removed. -/
theorem C74_minus_disjoint_violated (null : Nat) (m : Row) (ms : List Row) (s : Row) (ss : List Row) :
    minus [] [] (m :: ms) (s :: ss) = none ∧ Spec.minus null [] (m :: ms) (s :: ss) = m :: ms := by
  refine ⟨rfl, ?_⟩
  unfold Spec.minus
  rw [List.filter_eq_self]
  intro a _
  simp [Spec.excludes]

/-- **C74 (unbound variables) violated.** A solution that does not bind a common variable is kept although it agrees on the other one. -/
theorem C74_minus_unbound_violated : ∃ main sub : List Row,
    minus [0, 1] [0, 1] main sub ≠ some (Spec.minus 0xFFFFFFFF [(0, 0), (1, 1)] main sub) :=
  ⟨[(1, [1, 0xFFFFFFFF])], [(1, [1, 2])], by decide⟩

/-! ## VALUES -/

theorem scan_spec (k m : Nat) (hk : 0 < k) (values : List Nat) : ∀ (n i : Nat), m < n + i * k → scan k m values n (i * k) =
    (List.range' i ((m + k - 1) / k - i)).map fun j => (1, (values.drop (j * k)).take k) := by
  intro n
  induction n with
  | zero =>
    intro i h
    have : (m + k - 1) / k ≤ i := by
      rw [Nat.div_le_iff_le_mul_add_pred hk]; rw [Nat.mul_comm]; omega
    rw [Nat.sub_eq_zero_of_le this]; rfl
  | succ n ih =>
    intro i h
    rw [scan]
    split
    · rename_i hlt
      have : i < (m + k - 1) / k := by
        rw [Nat.lt_div_iff_mul_lt hk]; rw [Nat.mul_comm] at hlt ⊢; omega
      obtain ⟨q, hq⟩ : ∃ q, (m + k - 1) / k - i = q + 1 := ⟨(m + k - 1) / k - i - 1, by omega⟩
      rw [hq, List.range'_succ, List.map_cons]
      have e : i * k + k = (i + 1) * k := by rw [Nat.succ_mul]
      rw [e, ih (i + 1) (by rw [Nat.succ_mul]; omega)]
      have h2 : (m + k - 1) / k - (i + 1) = q := by omega
      rw [h2]
    · rename_i hlt
      have : (m + k - 1) / k ≤ i := by
        rw [Nat.div_le_iff_le_mul_add_pred hk]; rw [Nat.mul_comm]; omega
      rw [Nat.sub_eq_zero_of_le this]; rfl

/-- What `VALUES` with `k` variables returns: the first rows of the list, as many as the number of rows divided by `k`. -/
theorem valuesScan_eq (k : Nat) (hk : 0 < k) (values : List Nat) :
    valuesScan k values = ((Spec.chunks k values).take ((values.length / k + k - 1) / k)).map fun t => (1, t) := by
  unfold valuesScan Spec.chunks
  simp only [if_pos hk]
  have := scan_spec k (values.length / k) hk values (values.length / k + 1) 0 (by omega)
  rw [Nat.zero_mul] at this
  rw [this, Nat.sub_zero, ← List.range_eq_range', ← List.map_take, List.take_range, List.map_map]
  have : min ((values.length / k + k - 1) / k) (values.length / k) = (values.length / k + k - 1) / k := by
    apply Nat.min_eq_left
    rw [Nat.div_le_iff_le_mul_add_pred hk]
    have := Nat.mul_le_mul_right (values.length / k) hk
    omega
  rw [this]
  rfl

/-- **C75 (VALUES, part).** `VALUES` with one variable returns every value once; with more variables the rows that are returned are rows of the list, each at most as often.
Missing, and wrong in the code: all rows for more variables. -/
theorem C75_values_partial (k : Nat) (hk : 0 < k) (values : List Nat) :
    (k = 1 → valuesScan k values = (Spec.chunks k values).map fun t => (1, t)) ∧
      ∃ rest, (valuesScan k values).map (·.2) ++ rest = Spec.chunks k values := by
  rw [valuesScan_eq k hk]
  refine ⟨?_, ?_⟩
  · rintro rfl
    rw [List.take_of_length_le]
    simp [Spec.chunks]
  · rw [List.map_map]
    refine ⟨(Spec.chunks k values).drop ((values.length / k + k - 1) / k), ?_⟩
    have : ((fun x : Row => x.2) ∘ fun t => ((1, t) : Row)) = id := rfl
    rw [this, List.map_id, List.take_append_drop]

example : valuesScan 1 [5, 6, 7] = [(1, [5]), (1, [6]), (1, [7])] := by decide

/-- **C75 (VALUES with two variables) violated.** Of two rows only the first is returned. -/
theorem C75_values_violated : ∃ values : List Nat, (valuesScan 2 values).map (·.2) ≠ Spec.chunks 2 values := ⟨[1, 2, 3, 4], by decide⟩

/-! ## BIND -/

/-- **C75 (BIND, part).** Every solution gets the new columns; if every row occurs once, the occurrences are right.
Missing, and wrong in the code: the number of occurrences of rows that occur more than once. -/
theorem C75_bind_partial (args : List Arg) (input : List Row) :
    (bind args input).map (·.2) = input.map (fun r => r.2 ++ args.map fun a => match a with | .reg i => (r.2[i]?).getD 0 | .value v => v) ∧
      ((∀ r ∈ input, r.1 = 1) → (bind args input).map (·.1) = input.map (·.1)) := by
  refine ⟨?_, ?_⟩
  · unfold bind
    rw [List.map_map]
    apply List.map_congr_left
    intro r _
    show r.2 ++ _ = _
    congr 1
  · intro h
    unfold bind
    rw [List.map_map]
    apply List.map_congr_left
    intro r hr
    exact (h r hr).symm

example : bind [.reg 1, .value 9] [(1, [5, 6])] = [(1, [5, 6, 6, 9])] := by decide

/-- **C75 (BIND, occurrences) violated.** A solution that occurs twice is returned once. -/
theorem C75_bind_violated : ∃ (args : List Arg) (input : List Row), (bind args input).map (·.1) ≠ input.map (·.1) := ⟨[.value 9], [(2, [5])], by decide⟩

/-! ## Products -/

/-- **C76 (product).** Without OPTIONAL all pairs are returned, with the products of their occurrences. -/
theorem C76_product (wl wr : Nat) (regs : Tup) (left right : List Row) : cartProd false false wl wr regs left right = Spec.product left right := by
  unfold cartProd Spec.product
  match left, right with
  | [], _ => rfl
  | l :: ls, [] => simp [lefts, buffer]
  | l :: ls, b :: bs => simp [lefts, buffer]

/-- **C76 (left side optional).** An empty left side counts as one row of missing values. -/
theorem C76_left_optional (wl wr : Nat) (regs : Tup) (left right : List Row) :
    cartProd true false wl wr regs left right =
      if left = [] then right.map (fun r => (r.1, List.replicate wl null64 ++ r.2)) else Spec.product left right := by
  unfold cartProd Spec.product
  match left, right with
  | [], [] => simp [lefts, buffer]
  | [], b :: bs => simp [lefts, buffer]
  | l :: ls, [] => simp [lefts, buffer]
  | l :: ls, b :: bs => simp [lefts, buffer]

/-- **C76 (right side optional, part).** If the right side is not empty, all pairs are returned.  If it is empty, every row of the left side is returned, and all but the first
have missing values for the right side.
Missing, and wrong in the code: the missing values of the first row. -/
theorem C76_right_optional_partial (wl wr : Nat) (regs : Tup) (left right : List Row) :
    (right ≠ [] → cartProd false true wl wr regs left right = Spec.productOptional null64 wr left right) ∧
    (∀ l ls, right = [] → left = l :: ls → cartProd false true wl wr regs left right =
      (l.1, l.2 ++ regs) :: Spec.productOptional null64 wr ls right) := by
  refine ⟨?_, ?_⟩
  · intro hr
    unfold cartProd Spec.productOptional Spec.product
    match left, right, hr with
    | [], b :: bs, _ => simp [lefts, buffer]
    | l :: ls, b :: bs, _ => simp [lefts, buffer]
  · rintro l ls rfl rfl
    simp only [cartProd, Spec.productOptional, lefts, buffer, if_true, List.isEmpty_nil, List.map_cons, List.map_nil, Nat.mul_one, List.nil_append, List.cons_append]
    refine congrArg _ ?_
    induction ls with
    | nil => rfl
    | cons a ls ih => simp [List.flatMap_cons, ih]

example : cartProd false true 1 1 [3] [(2, [5]), (1, [6])] [(1, [7]), (3, [8])] = [(2, [5, 7]), (6, [5, 8]), (1, [6, 7]), (3, [6, 8])] := by decide

/-- **C76 (right side optional) violated.** The first row has an old value instead of a missing one. -/
theorem C76_right_optional_violated : ∃ (regs : Tup) (left : List Row), cartProd false true 1 1 regs left [] ≠ Spec.productOptional null64 1 left [] :=
  ⟨[3], [(1, [5])], by decide⟩

/-- **C76 (nested loops).** A nested loop returns all pairs as well, if the right side returns the same rows every time it is started. -/
theorem C76_nested_loop (left right : List Row) : NLReturns left right (Spec.product left right) := by
  match left with
  | [] => rfl
  | l :: ls =>
    match right with
    | [] =>
      have hp : Spec.product (l :: ls) [] = [] := by
        unfold Spec.product
        rw [List.flatMap_eq_nil_iff]
        intro x _; rfl
      have hf : ∀ (ls : List Row) (l : Row), nlFirst [] l ls = .stop := by
        intro ls
        induction ls with
        | nil => intro l; rw [nlFirst.eq_def]
        | cons a ls ih => intro l; rw [nlFirst.eq_def]; exact ih a
      unfold NLReturns
      simp only [hf]
      exact hp
    | r :: rs =>
      have inner : ∀ (rest : List Row) (cur : Row) (ls o : List Row), (∀ s : NL, s.left = ls → s.rest = [] → Runs (nlNext (r :: rs)) s o) →
          Runs (nlNext (r :: rs)) ⟨ls, cur, rest⟩ ((rest.map fun q => (cur.1 * q.1, cur.2 ++ q.2)) ++ o) := by
        intro rest
        induction rest with
        | nil => intro cur ls o h; exact h _ rfl rfl
        | cons a rest ih => intro cur ls o h; exact .emit rfl (ih cur ls o h)
      have outer : ∀ (ls : List Row) (s : NL), s.left = ls → s.rest = [] → Runs (nlNext (r :: rs)) s (Spec.product ls (r :: rs)) := by
        intro ls
        induction ls with
        | nil =>
          intro s h1 h2
          refine .stop ?_
          unfold nlNext
          rw [h2, h1]
        | cons a ls ih =>
          intro s h1 h2
          have e : nlNext (r :: rs) s = .emit (a.1 * r.1, a.2 ++ r.2) ⟨ls, a, rs⟩ := by
            unfold nlNext
            rw [h2, h1]
            show nlFirst (r :: rs) a ls = _
            rw [nlFirst.eq_def]
          unfold Spec.product
          rw [List.flatMap_cons, List.map_cons, List.cons_append]
          exact .emit e (inner rs a ls _ ih)
      have e : nlFirst (r :: rs) l ls = .emit (l.1 * r.1, l.2 ++ r.2) ⟨ls, l, rs⟩ := by rw [nlFirst.eq_def]
      unfold NLReturns
      simp only [e]
      exact ⟨_, inner rs l ls _ (outer ls), by simp [Spec.product]⟩

example : Spec.product [(2, [5]), (1, [6])] [(1, [7]), (3, [8])] = [(2, [5, 7]), (6, [5, 8]), (1, [6, 7]), (3, [6, 8])] := by decide

end Trident.Sparql.Algebra
