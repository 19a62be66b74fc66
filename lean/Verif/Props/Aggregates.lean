import Verif.Sparql.AggrLemmas
/-!
# C67: GROUP BY and aggregates

A query with GROUP BY and aggregates returns one row for every group: the values of the group variables and the aggregates over the solutions of the group.
A query with GROUP BY and no aggregates returns every group once.  The specification is in `Verif/Sparql/AggrSpec.lean`.
-/
namespace Trident.Sparql

variable {D : Type}

/-- **C67 (part).** `input` are the solutions, `gk` the columns of the variables of GROUP BY, `as` the aggregates with their input and output variables and
`cols` the columns of the input variables.  For every order that sorting may produce the query returns one row for each group, with the values of the
group variables and words for integers `f k a` that are the aggregates over the solutions of the group; a word reads as its number from 0 to 2^62 - 1.
Missing, and wrong in the code: DISTINCT; arguments that are not integers, or are group variables; sums and averages when a solution has a multiplicity;
averages that are no integers; a last group with a single row. -/
theorem C67_aggregates_partial (o : Dbl D) (num : Nat → Num D) (gk : List Nat) (cols : Nat → Nat) (as : List (Fn × Nat × Nat)) (input values : List Row)
    (hsort : Sorted gk input values)
    (hpos : ∀ r ∈ input, 0 < r.1) (hwidth : ∀ r ∈ input, ∀ g ∈ gk, g < r.2.length) (hgk : gk.Nodup)
    (houts : (as.map fun a => a.2.2).Nodup) (hnest : ∀ a ∈ as, ∀ b ∈ as, a.2.2 ≠ b.2.1)
    (hints : ∀ a ∈ as, a.1 ≠ .count → cols a.2.1 ∉ gk ∧ ∀ r ∈ input, ∃ i, num (r.2.getD (cols a.2.1) 0) = .int i)
    (hones : ∀ a ∈ as, a.1 = .sum ∨ a.1 = .avg → ∀ r ∈ input, r.1 = 1)
    (hlast : ∀ r ∈ input, (∀ s ∈ input, ¬ Spec.key gk r.2 < Spec.key gk s.2) →
      2 ≤ (input.filter fun s => Spec.key gk s.2 == Spec.key gk r.2).length ∨ ∀ s ∈ input, Spec.key gk s.2 = Spec.key gk r.2) :
    ∃ (ks : List (List Nat)) (f : List Nat → Fn × Nat × Nat → Int), ks.Nodup ∧ (∀ k, k ∈ ks ↔ ∃ r ∈ input, Spec.key gk r.2 = k) ∧
      aggregate o num (fun _ => false) gk cols as values = some (ks.map fun k => (1, k ++ as.map fun a => word (f k a))) ∧
      (∀ k ∈ ks, ∀ a ∈ as, Spec.IsAggregate a.1 ((Spec.group gk input k).map fun t => intOf (num (t.getD (cols a.2.1) 0))) (f k a)) ∧
      (∀ x : Int, 0 ≤ x → x < 2 ^ 62 → Spec.readInt (word x) = some x) := by
  obtain ⟨hperm, hpw⟩ := hsort
  have hf : Fit num gk cols as input := ⟨hpos, hwidth, hgk, houts, hnest, hints⟩
  match values, hperm, hpw with
  | [], hperm, _ =>
    have : input = [] := hperm.symm.eq_nil
    subst this
    exact ⟨[], fun _ _ => 0, by simp, by simp, rfl, by simp, word_reads⟩
  | r :: l, hperm, hpw =>
    obtain ⟨ks, hnd, hmem, he⟩ := nexts_spec (o := o) hf (l.length + 1) r l
      { regs := r.2, cnt := r.1, rest := l, keys := gk.map (col r.2), calls := initCalls o as, h := initHdl o fun _ => false }
      (fun s hs => hperm.mem_iff.1 hs) hpw (by omega) rfl rfl (fun _ => rfl) rfl rfl (fun _ _ => rfl) (by
        by_cases hall : ∀ s ∈ r :: l, keyOf gk s.2 = keyOf gk r.2
        · exact Or.inr ⟨rfl, fun s hs => hall s (by simp [hs])⟩
        · left
          intro x hx
          have hxm := List.mem_of_getLast? hx
          have := hlast x (hperm.mem_iff.1 hxm) (by
            intro s hs hlt
            rw [← ltF_iff] at hlt
            have hs' := hperm.mem_iff.2 hs
            obtain ⟨pre, hpre⟩ := List.getLast?_eq_some_iff.1 hx
            rw [hpre] at hs' hpw
            rcases List.mem_append.1 hs' with h | h
            · have := (List.pairwise_append.1 hpw).2.2 s h x (by simp)
              rw [this] at hlt; cases hlt
            · rw [List.mem_singleton.1 h, ltF_irrefl] at hlt; cases hlt)
          rcases this with h | h
          · exact (hperm.filter _).length_eq ▸ h
          · exact absurd (fun s hs => (h s (hperm.mem_iff.1 hs)).trans (h r (hperm.mem_iff.1 (by simp))).symm) hall)
    refine ⟨ks, fun k a => valueOf o num cols a ((r :: l).filter fun s => keyOf gk s.2 == k), hnd, ?_, he, ?_, word_reads⟩
    · intro k
      rw [hmem]
      constructor
      · rintro ⟨s, hs, e⟩; exact ⟨s, hperm.mem_iff.1 hs, e⟩
      · rintro ⟨s, hs, e⟩; exact ⟨s, hperm.mem_iff.2 hs, e⟩
    · intro k hk a ha
      have hp : ((r :: l).filter fun s => keyOf gk s.2 == k).Perm (input.filter fun s => keyOf gk s.2 == k) := hperm.filter _
      have hsub : ∀ s ∈ (r :: l).filter (fun s => keyOf gk s.2 == k), s ∈ input := fun s hs => hperm.mem_iff.1 (List.mem_filter.1 hs).1
      have := valueOf_is o num cols a ((r :: l).filter fun s => keyOf gk s.2 == k) (by
          obtain ⟨s, hs, e⟩ := (hmem k).1 hk
          exact List.ne_nil_of_mem (List.mem_filter.2 ⟨hs, by simpa using e⟩))
        (fun s hs => hpos s (hsub s hs)) (fun h s hs => hones a ha h s (hsub s hs))
      refine isAggregate_perm ?_ this
      unfold Spec.group
      rw [expand_filter]
      exact (expand_perm hp).map _

/-- Without aggregates: every group is returned once, with the values of some solution of it. -/
theorem C67_groups (gk : List Nat) (input values : List Row) (hsort : Sorted gk input values) :
    ((groupDistinct gk values).map fun r => Spec.key gk r.2).Nodup ∧ (∀ r ∈ groupDistinct gk values, r.1 = 1 ∧ ∃ s ∈ input, s.2 = r.2) ∧
      ∀ s ∈ input, ∃ r ∈ groupDistinct gk values, Spec.key gk r.2 = Spec.key gk s.2 := by
  obtain ⟨hperm, hpw⟩ := hsort
  have hsame : ∀ a b : Tup, sameF gk a b = true ↔ Spec.key gk a = Spec.key gk b := by
    intro a b
    unfold sameF Spec.key
    rw [List.map_inj_left, List.all_eq_true]
    simp [col]
  have main : ∀ (l : List Row) (p : Row), (p :: l).Pairwise (fun a b => ltF gk b.2 a.2 = false) →
      (Spec.key gk p.2 :: (nextDistinct gk p.2 l).map fun r => Spec.key gk r.2).Nodup ∧
      (∀ r ∈ nextDistinct gk p.2 l, r.1 = 1 ∧ ∃ s ∈ l, s.2 = r.2) ∧
      ∀ s ∈ l, Spec.key gk s.2 = Spec.key gk p.2 ∨ ∃ r ∈ nextDistinct gk p.2 l, Spec.key gk r.2 = Spec.key gk s.2 := by
    intro l
    induction l with
    | nil => intro p _; simp [nextDistinct]
    | cons r l ih =>
      intro p hp
      rw [List.pairwise_cons] at hp
      obtain ⟨a, b, c⟩ := ih r hp.2
      by_cases hs : sameF gk p.2 r.2 = true
      · have hk := (hsame _ _).1 hs
        rw [nextDistinct, if_pos hs, hk]
        refine ⟨a, fun x hx => ⟨(b x hx).1, ?_⟩, ?_⟩
        · obtain ⟨s, hs, e⟩ := (b x hx).2
          exact ⟨s, by simp [hs], e⟩
        · intro s hs
          rcases List.mem_cons.1 hs with rfl | hs
          · exact Or.inl rfl
          · exact c s hs
      · have hk : Spec.key gk p.2 ≠ Spec.key gk r.2 := fun h => hs ((hsame _ _).2 h)
        rw [nextDistinct, if_neg hs]
        refine ⟨?_, ?_, ?_⟩
        · rw [List.map_cons]
          refine List.nodup_cons.2 ⟨?_, a⟩
          intro hmem
          rcases List.mem_cons.1 hmem with h | h
          · exact hk h
          · obtain ⟨x, hx, hxk⟩ := List.mem_map.1 h
            obtain ⟨s, hs', e⟩ := (b x hx).2
            have h1 : ltF gk r.2 p.2 = false := hp.1 r (by simp)
            have h2 := (List.pairwise_cons.1 hp.2).1 s hs'
            have : keyOf gk s.2 = keyOf gk p.2 := by rw [e]; exact hxk
            rw [(ltF_congr this).2] at h2
            exact hk (ltF_key h2 h1)
        · intro x hx
          rcases List.mem_cons.1 hx with rfl | hx
          · exact ⟨rfl, r, by simp, rfl⟩
          · obtain ⟨s, hs, e⟩ := (b x hx).2
            exact ⟨(b x hx).1, s, by simp [hs], e⟩
        · intro s hs
          right
          rcases List.mem_cons.1 hs with rfl | hs
          · exact ⟨(1, s.2), by simp, rfl⟩
          · rcases c s hs with h | ⟨x, hx, e⟩
            · exact ⟨(1, r.2), by simp, h.symm⟩
            · exact ⟨x, by simp [hx], e⟩
  match values, hperm, hpw with
  | [], hperm, _ =>
    have : input = [] := hperm.symm.eq_nil
    subst this
    simp [groupDistinct]
  | r :: l, hperm, hpw =>
    obtain ⟨a, b, c⟩ := main l r hpw
    rw [groupDistinct]
    refine ⟨a, ?_, ?_⟩
    · intro x hx
      rcases List.mem_cons.1 hx with rfl | hx
      · exact ⟨rfl, r, hperm.mem_iff.1 (by simp), rfl⟩
      · obtain ⟨s, hs, e⟩ := (b x hx).2
        exact ⟨(b x hx).1, s, hperm.mem_iff.1 (by simp [hs]), e⟩
    · intro s hs
      rcases List.mem_cons.1 (hperm.mem_iff.2 hs) with rfl | hs
      · exact ⟨(1, s.2), by simp, rfl⟩
      · rcases c s hs with h | ⟨x, hx, e⟩
        · exact ⟨(1, r.2), by simp, h.symm⟩
        · exact ⟨x, by simp [hx], e⟩

/-! ## Integers and decimals together -/

/-- A number as the argument of an aggregate (aggrhandler.cpp:68-86). -/
def numValue (z : D) : Int ⊕ D → VarValue D
  | .inl i => ⟨i, 1, z, .int⟩
  | .inr d => ⟨0, 1, d, .dec⟩

/-- The numbers of a group one after the other, each as an update of the input and `executeFunction`. -/
def feed (o : Dbl D) (h : Hdl D) : Call D → List (Int ⊕ D) → Option (Call D × Hdl D)
  | c, [] => some (c, h)
  | c, x :: xs => (execute o (h.setVar c.inVar (numValue o.zero x)) c).bind fun p => feed o h p.1 xs

/-- The end of a group: the output variable after the update with null. -/
def result (o : Dbl D) (h : Hdl D) (c : Call D) (xs : List (Int ⊕ D)) : Option (VarValue D) :=
  (feed o h c xs).bind fun p => (execute o (p.2.setVar c.inVar { p.2.vars c.inVar with type := .nul }) p.1).map fun q => q.2.vars c.outVar

/-- A number as a decimal. -/
def asDec (o : Dbl D) : Int ⊕ D → D
  | .inl i => o.ofInt i
  | .inr d => d

/-- What a result denotes. -/
def resDec (o : Dbl D) (v : VarValue D) : D := if v.type = .int then o.ofInt v.vInt else v.vDec

/-- The sum in a call. -/
def argDec (o : Dbl D) (c : Call D) : D := if c.arg1Bool then o.ofInt c.arg1Int else c.arg1Dec

theorem addArg_dec (o : Dbl D) (hadd : ∀ a b, o.ofInt (a + b) = o.add (o.ofInt a) (o.ofInt b)) (c : Call D) (x : Int ⊕ D) :
    argDec o (addArg o (numValue o.zero x) c) = o.add (argDec o c) (asDec o x)
      ∧ (addArg o (numValue o.zero x) c).id = c.id ∧ (addArg o (numValue o.zero x) c).inVar = c.inVar ∧ (addArg o (numValue o.zero x) c).outVar = c.outVar
      ∧ (addArg o (numValue o.zero x) c).arg2Int = c.arg2Int
      ∧ ((addArg o (numValue o.zero x) c).arg1Bool = (c.arg1Bool && x.isLeft)) := by
  cases x <;> cases hb : c.arg1Bool <;> simp [addArg, numValue, argDec, asDec, hb, hadd]

/-- **SUM of integers and decimals** is their sum as decimals, if conversion to decimals does not round. -/
theorem C67_mixed_sum (o : Dbl D) (hadd : ∀ a b, o.ofInt (a + b) = o.add (o.ofInt a) (o.ofInt b)) (h : Hdl D) (c : Call D) (hc : c.id = .sum) (hd : h.distinct .sum = false)
    (hv : c.inVar ≠ c.outVar) (xs : List (Int ⊕ D)) :
    ∃ v, result o h (c.reset o) xs = some v ∧ resDec o v = xs.foldl (fun s x => o.add s (asDec o x)) (o.ofInt 0)
      ∧ (v.type = .int ↔ ∀ x ∈ xs, x.isLeft) := by
  have main : ∀ (xs : List (Int ⊕ D)) (c : Call D), c.id = .sum → c.inVar ≠ c.outVar →
      ∃ c', feed o h c xs = some (c', h) ∧ argDec o c' = xs.foldl (fun s x => o.add s (asDec o x)) (argDec o c) ∧ c'.id = .sum
        ∧ c'.inVar = c.inVar ∧ c'.outVar = c.outVar ∧ (c'.arg1Bool = (c.arg1Bool && xs.all (·.isLeft))) := by
    intro xs
    induction xs with
    | nil => intro c hc hv; exact ⟨c, rfl, rfl, hc, rfl, rfl, by simp⟩
    | cons x xs ih =>
      intro c hc hv
      obtain ⟨a1, a2, a3, a4, a5, a6⟩ := addArg_dec o hadd c x
      obtain ⟨c', b1, b2, b3, b4, b5, b6⟩ := ih (addArg o (numValue o.zero x) c) (a2.trans hc) (by rw [a3, a4]; exact hv)
      refine ⟨c', ?_, ?_, b3, b4.trans a3, b5.trans a4, ?_⟩
      · rw [feed]
        have : execute o (h.setVar c.inVar (numValue o.zero x)) c = some (addArg o (numValue o.zero x) c, h.setVar c.inVar (numValue o.zero x)) := by
          have hd' : (h.setVar c.inVar (numValue o.zero x)).distinct c.id = false := by rw [hc]; exact hd
          have ht : (numValue o.zero x).type ≠ .nul := by cases x <;> simp [numValue]
          unfold execute
          rw [hd']
          simp [execFn, hc, execSum, Hdl.setVar, ht]
        rw [this, Option.bind_some]
        exact b1
      · rw [b2, a1, List.foldl_cons]
      · rw [b6, a6, List.all_cons, Bool.and_assoc]
  obtain ⟨c', b1, b2, b3, b4, b5, b6⟩ := main xs (c.reset o) hc hv
  have hi : c'.inVar = c.inVar := b4
  have ho : c'.outVar = c.outVar := b5
  have e1 : argDec o (c.reset o) = o.ofInt 0 := by simp [argDec, Call.reset]
  rw [e1] at b2
  have e2 : (c.reset o).arg1Bool = true := rfl
  rw [e2, Bool.true_and] at b6
  unfold result
  rw [b1, Option.bind_some]
  simp only
  unfold execute
  have hd' : (h.setVar (c.reset o).inVar { h.vars (c.reset o).inVar with type := .nul }).distinct c'.id = false := by rw [b3]; exact hd
  rw [hd']
  have h1 : (c.reset o).inVar = c.inVar := rfl
  have h2 : (c.reset o).outVar = c.outVar := rfl
  simp only [execFn, b3, execSum, hi, ho, h1, h2, Hdl.setVar]
  cases hb : c'.arg1Bool with
  | true =>
    refine ⟨_, by simp [Hdl.outInt, Hdl.setVar]; rfl, ?_, ?_⟩
    · rw [← b2]; simp [resDec, argDec, hb]
    · simp only [true_iff]
      rw [hb] at b6
      simpa using b6.symm
  | false =>
    refine ⟨_, by simp [Hdl.outDec, Hdl.setVar]; rfl, ?_, ?_⟩
    · rw [← b2]; simp [resDec, argDec, hb]
    · rw [hb] at b6
      constructor
      · intro h; simp at h
      · intro h
        have : xs.all (·.isLeft) = true := by simpa using h
        rw [this] at b6; cases b6

theorem best_step (o : Dbl D) (better : Int → Int → Bool) (betterD : D → D → Bool) (hlt : ∀ a b : Int, betterD (o.ofInt a) (o.ofInt b) = better a b)
    (hirr : ∀ a, betterD a a = false)
    (hasym : ∀ a b, betterD a b = true → betterD b a = false) (h : Hdl D) (c : Call D) (hb : c.arg2Bool = false) (x : Int ⊕ D) :
    ∃ c', execBest o better betterD (h.setVar c.inVar (numValue o.zero x)) c = some (c', h.setVar c.inVar (numValue o.zero x))
      ∧ c'.id = c.id ∧ c'.inVar = c.inVar ∧ c'.outVar = c.outVar ∧ c'.arg2Bool = false
      ∧ (argDec o c' = argDec o c ∨ argDec o c' = asDec o x) ∧ betterD (asDec o x) (argDec o c') = false ∧ betterD (argDec o c) (argDec o c') = false := by
  cases x with
  | inl i =>
    cases h1 : c.arg1Bool with
    | true =>
      by_cases hbt : better i c.arg1Int = true
      · refine ⟨{ c with arg1Int := i }, by simp [execBest, Hdl.setVar, numValue, hb, h1, hbt], rfl, rfl, rfl, hb, Or.inr ?_, ?_, ?_⟩
        · simp [argDec, asDec, h1]
        · simp [argDec, asDec, h1, hirr]
        · simp only [argDec, h1, if_true]; exact hasym _ _ (by rw [hlt]; exact hbt)
      · refine ⟨c, by simp [execBest, Hdl.setVar, numValue, hb, h1, hbt], rfl, rfl, rfl, hb, Or.inl rfl, ?_, hirr _⟩
        simp only [argDec, asDec, h1, if_true]; rw [hlt]; exact Bool.eq_false_iff.2 hbt
    | false =>
      by_cases hbt : betterD (o.ofInt i) c.arg1Dec = true
      · refine ⟨{ c with arg1Bool := true, arg1Int := i }, by simp [execBest, Hdl.setVar, numValue, hb, h1, hbt], rfl, rfl, rfl, hb, Or.inr ?_, ?_, ?_⟩
        · simp [argDec, asDec]
        · simp [argDec, asDec, hirr]
        · simp only [argDec, h1, if_true]; exact hasym _ _ hbt
      · refine ⟨c, by simp [execBest, Hdl.setVar, numValue, hb, h1, hbt], rfl, rfl, rfl, hb, Or.inl rfl, ?_, hirr _⟩
        simp only [argDec, asDec, h1]; exact Bool.eq_false_iff.2 hbt
  | inr d =>
    cases h1 : c.arg1Bool with
    | true =>
      by_cases hbt : betterD d (o.ofInt c.arg1Int) = true
      · refine ⟨{ c with arg1Bool := false, arg1Dec := d }, by simp [execBest, Hdl.setVar, numValue, hb, h1, hbt], rfl, rfl, rfl, hb, Or.inr ?_, ?_, ?_⟩
        · simp [argDec, asDec]
        · simp [argDec, asDec, hirr]
        · simp only [argDec, h1, if_true]; exact hasym _ _ hbt
      · refine ⟨c, by simp [execBest, Hdl.setVar, numValue, hb, h1, hbt], rfl, rfl, rfl, hb, Or.inl rfl, ?_, hirr _⟩
        simp only [argDec, asDec, h1, if_true]; exact Bool.eq_false_iff.2 hbt
    | false =>
      by_cases hbt : betterD d c.arg1Dec = true
      · refine ⟨{ c with arg1Dec := d }, by simp [execBest, Hdl.setVar, numValue, hb, h1, hbt], rfl, rfl, rfl, hb, Or.inr ?_, ?_, ?_⟩
        · simp [argDec, asDec, h1]
        · simp [argDec, asDec, h1, hirr]
        · simp only [argDec, h1]; exact hasym _ _ hbt
      · refine ⟨c, by simp [execBest, Hdl.setVar, numValue, hb, h1, hbt], rfl, rfl, rfl, hb, Or.inl rfl, ?_, hirr _⟩
        simp only [argDec, asDec, h1]; exact Bool.eq_false_iff.2 hbt

theorem best_spec (o : Dbl D) (better : Int → Int → Bool) (betterD : D → D → Bool) (hlt : ∀ a b : Int, betterD (o.ofInt a) (o.ofInt b) = better a b)
    (hirr : ∀ a, betterD a a = false) (htr : ∀ a b c, betterD a b = false → betterD b c = false → betterD a c = false)
    (hasym : ∀ a b, betterD a b = true → betterD b a = false) (h : Hdl D) (c : Call D)
    (hex : ∀ (h' : Hdl D) (c' : Call D), c'.id = c.id → h'.distinct c.id = false → execute o h' c' = execBest o better betterD h' c')
    (hd : h.distinct c.id = false) (hv : c.inVar ≠ c.outVar) (xs : List (Int ⊕ D)) (hx : xs ≠ []) :
    ∃ v, result o h (c.reset o) xs = some v ∧ (∃ x ∈ xs, resDec o v = asDec o x) ∧ ∀ x ∈ xs, betterD (asDec o x) (resDec o v) = false := by
  have main : ∀ (xs : List (Int ⊕ D)) (c0 : Call D), c0.id = c.id → c0.inVar = c.inVar → c0.outVar = c.outVar → c0.arg2Bool = false →
      ∃ c', feed o h c0 xs = some (c', h) ∧ c'.id = c.id ∧ c'.inVar = c.inVar ∧ c'.outVar = c.outVar ∧ c'.arg2Bool = false
        ∧ (argDec o c' = argDec o c0 ∨ ∃ x ∈ xs, argDec o c' = asDec o x)
        ∧ betterD (argDec o c0) (argDec o c') = false ∧ ∀ x ∈ xs, betterD (asDec o x) (argDec o c') = false := by
    intro xs
    induction xs with
    | nil => intro c0 a1 a2 a3 a4; exact ⟨c0, rfl, a1, a2, a3, a4, Or.inl rfl, hirr _, fun x hx => by cases hx⟩
    | cons x xs ih =>
      intro c0 a1 a2 a3 a4
      obtain ⟨c1, b1, b2, b3, b4, b5, b6, b7, b8⟩ := best_step o better betterD hlt hirr hasym h c0 a4 x
      obtain ⟨c', d1, d2, d3, d4, d5, d6, d7, d8⟩ := ih c1 (b2.trans a1) (b3.trans a2) (b4.trans a3) b5
      refine ⟨c', ?_, d2, d3, d4, d5, ?_, htr _ _ _ b8 d7, ?_⟩
      · rw [feed, hex (h.setVar c0.inVar (numValue o.zero x)) c0 a1 hd, b1, Option.bind_some]; exact d1
      · rcases d6 with d6 | ⟨y, hy, e⟩
        · rcases b6 with b6 | b6
          · exact Or.inl (d6.trans b6)
          · exact Or.inr ⟨x, by simp, d6.trans b6⟩
        · exact Or.inr ⟨y, by simp [hy], e⟩
      · intro y hy
        rcases List.mem_cons.1 hy with rfl | hy
        · exact htr _ _ _ b7 d7
        · exact d8 y hy
  match xs, hx with
  | x :: xs, _ =>
    obtain ⟨c1, e1, e2, e3, e4, e5, e6⟩ : ∃ c1, execBest o better betterD (h.setVar c.inVar (numValue o.zero x)) (c.reset o)
        = some (c1, h.setVar c.inVar (numValue o.zero x)) ∧ c1.id = c.id ∧ c1.inVar = c.inVar ∧ c1.outVar = c.outVar ∧ c1.arg2Bool = false ∧ argDec o c1 = asDec o x := by
      cases x with
      | inl i => exact ⟨{ c.reset o with arg2Bool := false, arg1Bool := true, arg1Int := i }, by simp [execBest, Hdl.setVar, numValue, Call.reset], rfl, rfl, rfl, rfl, by simp [argDec, asDec]⟩
      | inr d => exact ⟨{ c.reset o with arg2Bool := false, arg1Bool := false, arg1Dec := d }, by simp [execBest, Hdl.setVar, numValue, Call.reset], rfl, rfl, rfl, rfl, by simp [argDec, asDec]⟩
    obtain ⟨c', d1, d2, d3, d4, d5, d6, d7, d8⟩ := main xs c1 e2 e3 e4 e5
    rw [e6] at d6 d7
    have hfeed : feed o h (c.reset o) (x :: xs) = some (c', h) := by
      rw [feed]
      have hi : (c.reset o).inVar = c.inVar := rfl
      rw [hi, hex (h.setVar c.inVar (numValue o.zero x)) (c.reset o) rfl hd, e1, Option.bind_some]; exact d1
    have hres : ∃ v, result o h (c.reset o) (x :: xs) = some v ∧ resDec o v = argDec o c' := by
      unfold result
      rw [hfeed, Option.bind_some]
      simp only
      rw [hex (h.setVar (c.reset o).inVar { h.vars (c.reset o).inVar with type := .nul }) c' d2 hd]
      have h1 : (c.reset o).inVar = c.inVar := rfl
      have h2 : (c.reset o).outVar = c.outVar := rfl
      simp only [h1, h2]
      cases hb : c'.arg1Bool with
      | true => exact ⟨_, by simp [execBest, d3, d4, d5, hb, Hdl.setVar, Hdl.outInt]; rfl, by simp [resDec, argDec, hb]⟩
      | false => exact ⟨_, by simp [execBest, d3, d4, d5, hb, Hdl.setVar, Hdl.outDec]; rfl, by simp [resDec, argDec, hb]⟩
    obtain ⟨v, hv1, hv2⟩ := hres
    refine ⟨v, hv1, ?_, ?_⟩
    · rw [hv2]
      rcases d6 with d6 | ⟨y, hy, e⟩
      · exact ⟨x, by simp, d6⟩
      · exact ⟨y, by simp [hy], e⟩
    · intro y hy
      rw [hv2]
      rcases List.mem_cons.1 hy with rfl | hy
      · exact d7
      · exact d8 y hy

/-- **MIN of integers and decimals** is one of them, and none of them is smaller. -/
theorem C67_mixed_min (o : Dbl D) (hlt : ∀ a b : Int, o.lt (o.ofInt a) (o.ofInt b) = decide (a < b)) (hirr : ∀ a, o.lt a a = false)
    (htr : ∀ a b c, o.lt a b = false → o.lt b c = false → o.lt a c = false) (hasym : ∀ a b, o.lt a b = true → o.lt b a = false)
    (h : Hdl D) (c : Call D) (hc : c.id = .min) (hd : h.distinct .min = false) (hv : c.inVar ≠ c.outVar) (xs : List (Int ⊕ D)) (hx : xs ≠ []) :
    ∃ v, result o h (c.reset o) xs = some v ∧ (∃ x ∈ xs, resDec o v = asDec o x) ∧ ∀ x ∈ xs, o.lt (asDec o x) (resDec o v) = false := by
  have := best_spec o (fun x y => decide (x < y)) o.lt hlt hirr htr hasym h c
    (fun h' c' hid hd' => by unfold execute; rw [hid, hd']; simp [execFn, hid, hc]) (by rw [hc]; exact hd) hv xs hx
  exact this

/-- **MAX of integers and decimals** is one of them, and none of them is greater. -/
theorem C67_mixed_max (o : Dbl D) (hlt : ∀ a b : Int, o.lt (o.ofInt a) (o.ofInt b) = decide (a < b)) (hirr : ∀ a, o.lt a a = false)
    (htr : ∀ a b c, o.lt a b = false → o.lt b c = false → o.lt a c = false) (hasym : ∀ a b, o.lt a b = true → o.lt b a = false)
    (h : Hdl D) (c : Call D) (hc : c.id = .max) (hd : h.distinct .max = false) (hv : c.inVar ≠ c.outVar) (xs : List (Int ⊕ D)) (hx : xs ≠ []) :
    ∃ v, result o h (c.reset o) xs = some v ∧ (∃ x ∈ xs, resDec o v = asDec o x) ∧ ∀ x ∈ xs, o.lt (resDec o v) (asDec o x) = false := by
  have := best_spec o (fun x y => decide (x > y)) (fun x y => o.lt y x) (fun a b => hlt b a) hirr (fun a b c h1 h2 => htr c b a h2 h1)
    (fun a b h => hasym b a h) h c
    (fun h' c' hid hd' => by unfold execute; rw [hid, hd']; simp [execFn, hid, hc]) (by rw [hc]; exact hd) hv xs hx
  exact this

/-! ## Examples -/

/-- Doubles as numbers of hundredths; the conversion to an integer drops the fraction. -/
def exDbl : Dbl Int := ⟨0, fun i => 100 * i, (· + ·), fun a b => a.tdiv b, fun a b => decide (a < b), fun a => (a.tdiv 100).toNat⟩

/-- Values below 1000 are themselves, from 1000 to 1999 negative integers, from 2000 to 2999 hundredths, the others terms. -/
def exNum (v : Nat) : Num Int := if v < 1000 then .int v else if v < 2000 then .int (1000 - v) else if v < 3000 then .dec (v - 2000) else .term

/-- Three groups; columns 0 and 1 are the group variables, 2 and 3 the arguments. -/
def exRows : List Row := [(1, [7, 1, 40, 9000]), (1, [7, 2, 5, 9001]), (1, [3, 1, 8, 9001]), (1, [7, 2, 9, 9001]), (1, [7, 1, 2, 9000])]

/-- A permutation in which the rows are sorted. -/
def exValues : List Row := [(1, [3, 1, 8, 9001]), (1, [7, 1, 2, 9000]), (1, [7, 1, 40, 9000]), (1, [7, 2, 5, 9001]), (1, [7, 2, 9, 9001])]

/-- COUNT of the second argument and the others of the first. -/
def exAs : List (Fn × Nat × Nat) := [(.count, 3, 4), (.min, 2, 5), (.max, 2, 6), (.sum, 2, 7), (.avg, 2, 8)]

theorem exSorted : Sorted [0, 1] exRows exValues := by
  refine ⟨?_, by decide +kernel⟩
  rw [List.perm_iff_count]
  intro a
  by_cases h : a ∈ exRows
  · revert a; decide +kernel
  · have h' : a ∉ exValues := fun h2 => h ((by decide +kernel : ∀ x ∈ exValues, x ∈ exRows) a h2)
    rw [List.count_eq_zero.2 h, List.count_eq_zero.2 h']

/-- The hypotheses hold, and the theorem gives the rows of the query. -/
example := C67_aggregates_partial exDbl exNum [0, 1] id exAs exRows exValues exSorted (by decide +kernel) (by decide +kernel) (by decide +kernel)
  (by decide +kernel) (by decide +kernel) (by
    intro a ha hc
    refine ⟨by revert a; decide +kernel, fun r hr => ?_⟩
    have : ∀ a ∈ exAs, a.1 ≠ .count → ∀ r ∈ exRows, (r.2.getD (id a.2.1) 0) < 1000 := by decide +kernel
    exact ⟨_, by rw [exNum, if_pos (this a ha hc r hr)]⟩) (by decide +kernel) (by decide +kernel)

example : aggregate exDbl exNum (fun _ => false) [0, 1] id exAs exValues = some [(1, [3, 1, word 1, word 8, word 8, word 8, word 8]),
    (1, [7, 1, word 2, word 2, word 40, word 42, word 21]), (1, [7, 2, word 2, word 5, word 9, word 14, word 7])] := by decide +kernel

example := C67_groups [0, 1] exRows exValues exSorted

example : groupDistinct [0, 1] exValues = [(1, [3, 1, 8, 9001]), (1, [7, 1, 2, 9000]), (1, [7, 2, 5, 9001])] := by decide +kernel

/-- SUM, MIN and MAX of 3, 0.5, -4 and 1.25 in hundredths; the laws hold for `exDbl`. -/
example : (result exDbl (initHdl exDbl fun _ => false) ⟨.sum, 1, 2, 0, 0, 0, true, true⟩ [.inl 3, .inr 50, .inl (-4), .inr 125]).map (resDec exDbl) = some 75
    ∧ (result exDbl (initHdl exDbl fun _ => false) ⟨.min, 1, 2, 0, 0, 0, true, true⟩ [.inl 3, .inr 50, .inl (-4), .inr 125]).map (resDec exDbl) = some (-400)
    ∧ (result exDbl (initHdl exDbl fun _ => false) ⟨.max, 1, 2, 0, 0, 0, true, true⟩ [.inr 50, .inl (-4), .inr 125, .inl 1]).map (resDec exDbl) = some 125 := by
  decide +kernel

example : (∀ a b : Int, exDbl.ofInt (a + b) = exDbl.add (exDbl.ofInt a) (exDbl.ofInt b)) ∧ (∀ a b : Int, exDbl.lt (exDbl.ofInt a) (exDbl.ofInt b) = decide (a < b))
    ∧ (∀ a, exDbl.lt a a = false) ∧ (∀ a b c, exDbl.lt a b = false → exDbl.lt b c = false → exDbl.lt a c = false)
    ∧ ∀ a b, exDbl.lt a b = true → exDbl.lt b a = false := by
  simp only [exDbl, decide_eq_false_iff_not, decide_eq_true_eq, decide_eq_decide]
  refine ⟨fun a b => by omega, fun a b => by omega, fun a => by omega, fun a b c => by omega, fun a b => by omega⟩

/-! ## What the code does otherwise -/

/-- **C67 is false.** Two groups with one solution each, and COUNT: the second row has the key of the first group.  At the end of the input the registers are
not restored (AggrFunctions.cpp:161-167), and they hold the key that was put there for the row before. -/
theorem C67_last_group_violated :
    Sorted [0] [(1, [1, 9000]), (1, [2, 9000])] [(1, [1, 9000]), (1, [2, 9000])] ∧
    aggregate exDbl exNum (fun _ => false) [0] id [(.count, 1, 2)] [(1, [1, 9000]), (1, [2, 9000])] = some [(1, [1, word 1]), (1, [1, word 1])] :=
  ⟨⟨List.Perm.refl _, by decide +kernel⟩, by decide +kernel⟩

/-- SUM of a solution that occurs three times counts it once. -/
theorem C67_sum_multiplicity_violated :
    aggregate exDbl exNum (fun _ => false) [0] id [(.sum, 1, 2)] [(3, [1, 10]), (1, [1, 20])] = some [(1, [1, word 30])] ∧
    ((Spec.group [0] [(3, [1, 10]), (1, [1, 20])] [1]).map fun t => intOf (exNum (t.getD 1 0))).sum = 50 := by decide +kernel

/-- COUNT(DISTINCT) does not count a term in the second group that was in the first. -/
theorem C67_distinct_violated :
    aggregate exDbl exNum (fun _ => true) [0] id [(.count, 1, 2)] [(1, [1, 9000]), (1, [1, 9001]), (1, [2, 9000]), (1, [2, 9000])] =
      some [(1, [1, word 2]), (1, [2, word 0])] := by decide +kernel

/-- The sum 0.5 + 1.75 is returned as the number 2 without the bits of a number, that is, as the term with the id 2. -/
theorem C67_decimal_violated :
    aggregate exDbl exNum (fun _ => false) [0] id [(.sum, 1, 2)] [(1, [1, 2050]), (1, [1, 2175])] = some [(1, [1, 2])] ∧ Spec.readInt 2 = none := by
  decide +kernel

/-- The sum 3 + -5 is returned as a word that is no integer. -/
theorem C67_negative_violated :
    aggregate exDbl exNum (fun _ => false) [0] id [(.sum, 1, 2)] [(1, [1, 3]), (1, [1, 1005])] = some [(1, [1, word (-2)])] ∧
    Spec.readInt (word (-2)) = none := by decide +kernel

/-- AVG of 1 and 2 is 1. -/
theorem C67_average_violated :
    aggregate exDbl exNum (fun _ => false) [0] id [(.avg, 1, 2)] [(1, [1, 1]), (1, [1, 2])] = some [(1, [1, word 1])] := by decide +kernel

/-- SUM of the group variable: for the group 5 with two solutions the first one is counted as 1, the key of the group before. -/
theorem C67_group_variable_violated :
    aggregate exDbl exNum (fun _ => false) [0] id [(.sum, 0, 2)] [(1, [1, 9]), (1, [5, 9]), (1, [5, 9])] = some [(1, [1, word 1]), (1, [5, word 6])] := by
  decide +kernel

/-- COUNT without GROUP BY and without solutions returns no row, not a row with 0. -/
theorem C67_empty_violated (o : Dbl D) (num : Nat → Num D) (v w : Nat) : aggregate o num (fun _ => false) [] id [(.count, v, w)] [] = some [] := rfl

end Trident.Sparql
