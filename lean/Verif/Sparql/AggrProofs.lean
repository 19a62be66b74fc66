import Verif.Sparql.Aggr
/-! # Lemmas on GROUP BY and aggregates -/
namespace Trident.Sparql

variable {D : Type}

/-! ## Calls -/

/-- What a call does with an integer that occurs `n` times. -/
def stepC (c : Call D) (n : Nat) (v : Int) : Call D :=
  match c.id with
  | .count => { c with arg1Int := c.arg1Int + n }
  | .sum => { c with arg1Int := c.arg1Int + v }
  | .avg => { c with arg2Int := c.arg2Int + 1, arg1Int := c.arg1Int + v }
  | .min => if c.arg2Bool then { c with arg2Bool := false, arg1Bool := true, arg1Int := v }
            else if v < c.arg1Int then { c with arg1Int := v } else c
  | .max => if c.arg2Bool then { c with arg2Bool := false, arg1Bool := true, arg1Int := v }
            else if v > c.arg1Int then { c with arg1Int := v } else c

/-- What a call returns at the end of a group. -/
def resultC (c : Call D) : Int :=
  match c.id with
  | .avg => if c.arg2Int = 0 then 0 else c.arg1Int.tdiv c.arg2Int
  | _ => c.arg1Int

theorem stepC_id (c : Call D) (n v) : (stepC c n v).id = c.id ∧ (stepC c n v).inVar = c.inVar ∧ (stepC c n v).outVar = c.outVar := by
  unfold stepC
  split
  · simp
  · simp
  · simp
  · split
    · simp
    · split <;> simp
  · split
    · simp
    · split <;> simp

theorem stepC_bool (c : Call D) (n v) (hb : c.arg1Bool = true) : (stepC c n v).arg1Bool = true := by
  unfold stepC
  split
  · simpa using hb
  · simpa using hb
  · simpa using hb
  · split
    · rfl
    · split <;> simpa using hb
  · split
    · rfl
    · split <;> simpa using hb

theorem stepC_reset (o : Dbl D) (c : Call D) (n v) : (stepC c n v).reset o = c.reset o := by
  obtain ⟨a, b, d⟩ := stepC_id c n v
  unfold Call.reset
  rw [a, b, d]

theorem stepC_arg2 (c : Call D) (n v) (h : c.id = .min ∨ c.id = .max) : (stepC c n v).arg2Bool = false := by
  unfold stepC
  rcases h with h | h <;> rw [h] <;> dsimp only
  · split
    · rfl
    · rename_i hb; split <;> simpa using hb
  · split
    · rfl
    · rename_i hb; split <;> simpa using hb

theorem execute_step (o : Dbl D) (h : Hdl D) (c : Call D) (hd : h.distinct c.id = false) (ht : (h.vars c.inVar).type ≠ .nul)
    (hi : c.id ≠ .count → (h.vars c.inVar).type = .int) (hb : c.arg1Bool = true) :
    execute o h c = some (stepC c (h.vars c.inVar).vCount (h.vars c.inVar).vInt, h) := by
  unfold execute
  rw [if_neg (by simp [hd])]
  unfold execFn stepC
  match hid : c.id with
  | .count => simp only [execCount, if_neg ht, hid] at hd ⊢; simp [hd]
  | .sum => simp [execSum, addArg, hi (by simp [hid]), hb, hid]
  | .avg => simp [execAvg, addArg, hi (by simp [hid]), hb, hid]
  | .min =>
    simp only [execBest, hi (by simp [hid]), hb]
    by_cases h2 : c.arg2Bool = true
    · simp [h2, hid]
    · simp only [h2]; simp [hid]
  | .max =>
    simp only [execBest, hi (by simp [hid]), hb]
    by_cases h2 : c.arg2Bool = true
    · simp [h2, hid]
    · simp only [h2]; simp [hid]

theorem stopUpdate_step (o : Dbl D) (h : Hdl D) (hd : ∀ f, h.distinct f = false) (cs : List (Call D))
    (hc : ∀ c ∈ cs, (h.vars c.inVar).type ≠ .nul ∧ (c.id ≠ .count → (h.vars c.inVar).type = .int) ∧ c.arg1Bool = true) :
    stopUpdate o h cs = some (cs.map fun c => stepC c (h.vars c.inVar).vCount (h.vars c.inVar).vInt, h) := by
  induction cs with
  | nil => rfl
  | cons c cs ih =>
    obtain ⟨a, b, d⟩ := hc c (by simp)
    rw [stopUpdate, execute_step o h c (hd _) a b d]
    simp only [Option.bind_some]
    rw [ih fun x hx => hc x (List.mem_cons_of_mem _ hx)]
    rfl

theorem execute_nul (o : Dbl D) (h : Hdl D) (c : Call D) (ht : (h.vars c.inVar).type = .nul)
    (hb : c.arg1Bool = true) (h2 : c.id = .min ∨ c.id = .max → c.arg2Bool = false) :
    execute o h c = some (c, h.outInt c.outVar (resultC c)) := by
  unfold execute
  rw [if_neg (by simp [ht])]
  unfold execFn resultC
  match hid : c.id with
  | .count => simp [execCount, ht]
  | .sum => simp [execSum, ht, hb]
  | .avg => simp only [execAvg, ht, hb, if_true]; split <;> simp
  | .min => simp [execBest, ht, hb, h2 (by simp [hid])]
  | .max => simp [execBest, ht, hb, h2 (by simp [hid])]

theorem outInt_vars (h : Hdl D) (v : Nat) (x : Int) (w : Nat) (hw : w ≠ v) : (h.outInt v x).vars w = h.vars w := by
  simp [Hdl.outInt, Hdl.setVar, hw]

theorem stopUpdate_nul (o : Dbl D) (cs : List (Call D)) : ∀ (h : Hdl D),
    (∀ c ∈ cs, (h.vars c.inVar).type = .nul ∧ c.arg1Bool = true ∧ (c.id = .min ∨ c.id = .max → c.arg2Bool = false)) →
    (∀ c ∈ cs, ∀ d ∈ cs, c.outVar ≠ d.inVar) → (cs.map (·.outVar)).Nodup →
    ∃ h', stopUpdate o h cs = some (cs, h') ∧ h'.distinct = h.distinct ∧ (∀ w, (∀ c ∈ cs, w ≠ c.outVar) → h'.vars w = h.vars w) ∧
      ∀ c ∈ cs, (h'.vars c.outVar).type = .int ∧ (h'.vars c.outVar).vInt = resultC c := by
  induction cs with
  | nil => intro h _ _ _; exact ⟨h, rfl, rfl, fun _ _ => rfl, by simp⟩
  | cons c cs ih =>
    intro h hc ho hn
    obtain ⟨a, b, d⟩ := hc c (by simp)
    rw [List.map_cons, List.nodup_cons] at hn
    obtain ⟨h', e1, e2, e3, e4⟩ := ih (h.outInt c.outVar (resultC c)) (by
        intro x hx
        have := hc x (List.mem_cons_of_mem _ hx)
        rwa [outInt_vars _ _ _ _ (ho c (by simp) x (List.mem_cons_of_mem _ hx)).symm])
      (fun x hx y hy => ho x (List.mem_cons_of_mem _ hx) y (List.mem_cons_of_mem _ hy)) hn.2
    refine ⟨h', ?_, by rw [e2]; rfl, ?_, ?_⟩
    · rw [stopUpdate, execute_nul o h c a b d]
      simp only [Option.bind_some]
      rw [e1]; rfl
    · intro w hw
      rw [e3 w fun x hx => hw x (List.mem_cons_of_mem _ hx), outInt_vars _ _ _ _ (hw c (by simp))]
    · intro x hx
      rcases List.mem_cons.1 hx with rfl | hx
      · rw [e3 _ fun y hy he => hn.1 (by rw [he]; exact List.mem_map_of_mem hy)]
        simp [Hdl.outInt, Hdl.setVar]
      · exact e4 x hx

/-! ## Variables -/

theorem updateVar_other (e : AggEnv D) (h : Hdl D) (v x n w : Nat) (hw : w ≠ v) : (updateVar e h v x n).vars w = h.vars w := by
  unfold updateVar
  split
  · simp [Hdl.setVar, hw]
  · split <;> simp [Hdl.setVar, hw]

theorem updateVar_distinct (e : AggEnv D) (h : Hdl D) (v x n : Nat) : (updateVar e h v x n).distinct = h.distinct := by
  unfold updateVar
  split
  · rfl
  · split <;> rfl

/-- What a variable holds after the update with `x`. -/
def Holds (e : AggEnv D) (v x n : Nat) (y : VarValue D) : Prop :=
  y.vCount = n ∧ y.type ≠ .nul ∧ (e.needsNumber v = true → ∀ i, e.num x = .int i → y.type = .int ∧ y.vInt = i)

theorem updateVar_holds (e : AggEnv D) (h : Hdl D) (v x n : Nat) : Holds e v x n ((updateVar e h v x n).vars v) := by
  unfold updateVar Holds
  by_cases hn : e.needsNumber v = true
  · simp only [hn]
    cases hx : e.num x <;> simp [Hdl.setVar]
  · simp [hn, Hdl.setVar]

theorem updateVars_spec (e : AggEnv D) (cols : Nat → Nat) (regs : Tup) (n : Nat) (upd : List (Nat × Nat)) (hu : ∀ p ∈ upd, p.2 = cols p.1) (h : Hdl D) :
    (upd.foldl (fun h p => updateVar e h p.1 (col regs p.2) n) h).distinct = h.distinct ∧
    ∀ v, (v ∈ upd.map (·.1) ∨ Holds e v (col regs (cols v)) n (h.vars v)) →
      Holds e v (col regs (cols v)) n ((upd.foldl (fun h p => updateVar e h p.1 (col regs p.2) n) h).vars v) := by
  induction upd generalizing h with
  | nil => simp
  | cons p upd ih =>
    rw [List.foldl_cons]
    obtain ⟨a, b⟩ := ih (fun q hq => hu q (List.mem_cons_of_mem _ hq)) (updateVar e h p.1 (col regs p.2) n)
    refine ⟨by rw [a, updateVar_distinct], fun v hv => b v ?_⟩
    by_cases hp : v = p.1
    · refine Or.inr ?_
      rw [hp, hu p (by simp)]
      exact updateVar_holds _ _ _ _ _
    · rcases hv with hv | hv
      · left
        rw [List.map_cons, List.mem_cons] at hv
        exact hv.resolve_left hp
      · right
        rwa [updateVar_other _ _ _ _ _ _ hp]

theorem updateNulls_spec (upd : List (Nat × Nat)) (h : Hdl D) :
    (upd.foldl (fun h p => h.setVar p.1 { h.vars p.1 with type := .nul }) h).distinct = h.distinct ∧
    ∀ v, (v ∈ upd.map (·.1) ∨ (h.vars v).type = .nul) →
      ((upd.foldl (fun h p => h.setVar p.1 { h.vars p.1 with type := .nul }) h).vars v).type = .nul := by
  induction upd generalizing h with
  | nil => simp
  | cons p upd ih =>
    rw [List.foldl_cons]
    obtain ⟨a, b⟩ := ih (h.setVar p.1 { h.vars p.1 with type := .nul })
    refine ⟨by rw [a]; rfl, fun v hv => b v ?_⟩
    by_cases hp : v = p.1
    · right; simp [Hdl.setVar, hp]
    · rcases hv with hv | hv
      · left
        rw [List.map_cons, List.mem_cons] at hv
        exact hv.resolve_left hp
      · right; simpa [Hdl.setVar, hp] using hv

/-! ## Keys -/

/-- The values of the group variables. -/
def keyOf (gk : List Nat) (t : Tup) : List Nat := gk.map (col t)

theorem col_set_ne (t : Tup) (g k c : Nat) (h : c ≠ g) : col (t.set g k) c = col t c := by
  simp [col, List.getElem?_set_ne (Ne.symm h)]

theorem col_set_eq (t : Tup) (g k : Nat) (h : g < t.length) : col (t.set g k) g = k := by
  simp [col, h]

theorem swapKeys_spec (gk ks : List Nat) (t : Tup) (hl : ks.length = gk.length) (hn : gk.Nodup) (hw : ∀ g ∈ gk, g < t.length) :
    (swapKeys gk ks t).2 = gk.map (col t) ∧ gk.map (col (swapKeys gk ks t).1) = ks ∧
      ∀ c, c ∉ gk → col (swapKeys gk ks t).1 c = col t c := by
  induction gk generalizing ks t with
  | nil =>
    match ks, hl with
    | [], _ => simp [swapKeys]
  | cons g gk ih =>
    match ks, hl with
    | k :: ks, hl =>
      rw [List.nodup_cons] at hn
      obtain ⟨a, b, c⟩ := ih ks (t.set g k) (by simpa using hl) hn.2 (by intro x hx; rw [List.length_set]; exact hw x (List.mem_cons_of_mem _ hx))
      simp only [swapKeys]
      refine ⟨?_, ?_, ?_⟩
      · rw [a, List.map_cons]
        congr 1
        apply List.map_congr_left
        intro x hx
        exact col_set_ne _ _ _ _ (by rintro rfl; exact hn.1 hx)
      · rw [List.map_cons, b, c g hn.1, col_set_eq _ _ _ (hw g (by simp))]
      · intro x hx
        rw [List.mem_cons, not_or] at hx
        rw [c x hx.2, col_set_ne _ _ _ _ hx.1]

theorem ltF_key {gk : List Nat} {a b : Tup} (h1 : ltF gk a b = false) (h2 : ltF gk b a = false) : keyOf gk a = keyOf gk b := by
  induction gk with
  | nil => rfl
  | cons g gk ih =>
    simp only [ltF] at h1 h2
    have e : col a g = col b g := by
      by_cases x : col a g < col b g
      · rw [if_pos x] at h1; cases h1
      · by_cases y : col b g < col a g
        · rw [if_pos y] at h2; cases h2
        · omega
    rw [if_neg (by omega), if_neg (by omega)] at h1 h2
    simp only [keyOf, List.map_cons, e]
    congr 1
    exact ih h1 h2

theorem ltF_congr {gk : List Nat} {a b c : Tup} (h : keyOf gk a = keyOf gk b) : ltF gk c a = ltF gk c b ∧ ltF gk a c = ltF gk b c := by
  induction gk with
  | nil => simp [ltF]
  | cons g gk ih =>
    simp only [keyOf, List.map_cons, List.cons.injEq] at h
    obtain ⟨x, y⟩ := ih h.2
    simp [ltF, h.1, x, y]

theorem ltF_irrefl (gk : List Nat) (a : Tup) : ltF gk a a = false := by
  induction gk with
  | nil => rfl
  | cons g gk ih => simp [ltF, ih]

theorem sameKey_iff {gk : List Nat} {t : Tup} {ks : List Nat} : sameKey gk t ks = true ↔ keyOf gk t = ks := by
  simp [sameKey, keyOf]

/-- In sorted rows, after the rows with the first key there is none with it. -/
theorem sorted_split {gk : List Nat} {r : Row} {l : List Row} (h : (r :: l).Pairwise (fun a b => ltF gk b.2 a.2 = false)) :
    ∃ g l', l = g ++ l' ∧ (∀ s ∈ g, keyOf gk s.2 = keyOf gk r.2) ∧ (∀ s ∈ l', keyOf gk s.2 ≠ keyOf gk r.2) := by
  induction l generalizing r with
  | nil => exact ⟨[], [], rfl, by simp, by simp⟩
  | cons s l ih =>
    rw [List.pairwise_cons] at h
    by_cases hk : keyOf gk s.2 = keyOf gk r.2
    · obtain ⟨g, l', e, a, b⟩ := ih h.2
      refine ⟨s :: g, l', by rw [e]; rfl, ?_, fun x hx => hk ▸ b x hx⟩
      intro x hx
      rcases List.mem_cons.1 hx with rfl | hx
      · exact hk
      · rw [a x hx, hk]
    · refine ⟨[], s :: l, rfl, by simp, ?_⟩
      intro x hx he
      have h1 : ltF gk s.2 r.2 = false := h.1 s (by simp)
      rcases List.mem_cons.1 hx with rfl | hx'
      · exact hk he
      · have h2 := (List.pairwise_cons.1 h.2).1 x hx'
        rw [(ltF_congr he).2] at h2
        exact hk (ltF_key h1 h2)

/-! ## Groups -/

/-- The integer of a value. -/
def intOf (x : Num D) : Int :=
  match x with
  | .int v => v
  | _ => 0

/-- The fixed data of `aggregate`. -/
def envOf (o : Dbl D) (num : Nat → Num D) (gk : List Nat) (cols : Nat → Nat) (as : List (Fn × Nat × Nat)) : AggEnv D :=
  { o := o, num := num, gk := gk, upd := as.map fun a => (a.2.1, cols a.2.1), ret := as.map fun a => a.2.2,
    needsNumber := fun v => as.any fun a => a.2.1 == v && a.1 != .count }

/-- A call after some rows of a group. -/
def after (num : Nat → Num D) (cols : Nat → Nat) (c : Call D) (g : List Row) : Call D :=
  g.foldl (fun c r => stepC c r.1 (intOf (num (col r.2 (cols c.inVar))))) c

theorem after_cons (num : Nat → Num D) (cols) (c : Call D) (r : Row) (g : List Row) :
    after num cols c (r :: g) = after num cols (stepC c r.1 (intOf (num (col r.2 (cols c.inVar))))) g := rfl

theorem after_id (num : Nat → Num D) (cols) (c : Call D) (g : List Row) :
    (after num cols c g).id = c.id ∧ (after num cols c g).inVar = c.inVar ∧ (after num cols c g).outVar = c.outVar := by
  induction g generalizing c with
  | nil => simp [after]
  | cons r g ih =>
    rw [after_cons]
    obtain ⟨a, b, d⟩ := ih (stepC c r.1 (intOf (num (col r.2 (cols c.inVar)))))
    obtain ⟨a', b', d'⟩ := stepC_id c r.1 (intOf (num (col r.2 (cols c.inVar))))
    exact ⟨a.trans a', b.trans b', d.trans d'⟩

theorem after_bool (num : Nat → Num D) (cols) (c : Call D) (g : List Row) (h : c.arg1Bool = true) : (after num cols c g).arg1Bool = true := by
  induction g generalizing c with
  | nil => exact h
  | cons r g ih => rw [after_cons]; exact ih _ (stepC_bool _ _ _ h)

theorem after_reset (o : Dbl D) (num : Nat → Num D) (cols) (c : Call D) (g : List Row) : (after num cols c g).reset o = c.reset o := by
  induction g generalizing c with
  | nil => rfl
  | cons r g ih => rw [after_cons, ih, stepC_reset]

theorem after_arg2' (num : Nat → Num D) (cols) (c : Call D) (g : List Row) (h : c.id = .min ∨ c.id = .max) (h2 : c.arg2Bool = false) :
    (after num cols c g).arg2Bool = false := by
  induction g generalizing c with
  | nil => exact h2
  | cons r g ih => rw [after_cons]; exact ih _ (by rwa [(stepC_id _ _ _).1]) (stepC_arg2 _ _ _ h)

theorem after_arg2 (num : Nat → Num D) (cols) (c : Call D) (r : Row) (g : List Row) (h : c.id = .min ∨ c.id = .max) :
    (after num cols c (r :: g)).arg2Bool = false := by
  rw [after_cons]; exact after_arg2' _ _ _ _ (by rwa [(stepC_id _ _ _).1]) (stepC_arg2 _ _ _ h)

/-- The conditions on the query and the rows: the arguments of all functions but COUNT are integers and not group variables. -/
structure Fit (num : Nat → Num D) (gk : List Nat) (cols : Nat → Nat) (as : List (Fn × Nat × Nat)) (rows : List Row) : Prop where
  pos : ∀ r ∈ rows, 0 < r.1
  width : ∀ r ∈ rows, ∀ g ∈ gk, g < r.2.length
  nodup : gk.Nodup
  outs : (as.map fun a => a.2.2).Nodup
  nest : ∀ a ∈ as, ∀ b ∈ as, a.2.2 ≠ b.2.1
  ints : ∀ a ∈ as, a.1 ≠ .count → cols a.2.1 ∉ gk ∧ ∀ r ∈ rows, ∃ i, num (col r.2 (cols a.2.1)) = .int i

/-- The calls belong to the aggregates of the query. -/
def CallsOf (as : List (Fn × Nat × Nat)) (cs : List (Call D)) : Prop :=
  cs.map (fun c => (c.id, c.inVar, c.outVar)) = as ∧ ∀ c ∈ cs, c.arg1Bool = true

theorem CallsOf.mem {as : List (Fn × Nat × Nat)} {cs : List (Call D)} (h : CallsOf as cs) {c : Call D} (hc : c ∈ cs) :
    (c.id, c.inVar, c.outVar) ∈ as := by
  rw [← h.1]; exact List.mem_map_of_mem hc

section
variable {o : Dbl D} {num : Nat → Num D} {gk : List Nat} {cols : Nat → Nat} {as : List (Fn × Nat × Nat)}

/-- A row is added; the registers may differ from the row in the group variables. -/
theorem addRow_spec {a : Agg D} {r : Row} {rows : List Row} (hf : Fit num gk cols as rows) (hr : r ∈ rows)
    (hc : CallsOf as a.calls) (hd : ∀ f, a.h.distinct f = false) (hcnt : a.cnt = r.1) (hregs : ∀ c, c ∉ gk → col a.regs c = col r.2 c) :
    ∃ h', addRow (envOf o num gk cols as) a = some { a with calls := a.calls.map fun c => after num cols c [r], h := h' } ∧
      (∀ f, h'.distinct f = false) := by
  have key := updateVars_spec (envOf o num gk cols as) cols a.regs a.cnt (envOf o num gk cols as).upd (by
    intro p hp
    simp only [envOf, List.mem_map] at hp
    obtain ⟨x, _, rfl⟩ := hp
    rfl) a.h
  have hup : ∀ c ∈ a.calls, c.inVar ∈ (envOf o num gk cols as).upd.map (·.1) := by
    intro c hc'
    simp only [envOf, List.map_map, List.mem_map]
    exact ⟨_, hc.mem hc', rfl⟩
  have hholds : ∀ c ∈ a.calls, Holds (envOf o num gk cols as) c.inVar (col a.regs (cols c.inVar)) a.cnt
      ((updateVars (envOf o num gk cols as) a.h a.regs a.cnt).vars c.inVar) := fun c hc' => key.2 c.inVar (Or.inl (hup c hc'))
  have hint : ∀ c ∈ a.calls, c.id ≠ .count → ((updateVars (envOf o num gk cols as) a.h a.regs a.cnt).vars c.inVar).type = .int ∧
      ((updateVars (envOf o num gk cols as) a.h a.regs a.cnt).vars c.inVar).vInt = intOf (num (col r.2 (cols c.inVar))) := by
    intro c hc' hid
    obtain ⟨x, y⟩ := hf.ints _ (hc.mem hc') hid
    obtain ⟨i, hi⟩ := y r hr
    have hi : num (col r.2 (cols c.inVar)) = .int i := hi
    have x : cols c.inVar ∉ gk := x
    have := (hholds c hc').2.2 (by
      simp only [envOf, List.any_eq_true]
      exact ⟨_, hc.mem hc', by simp [hid]⟩) i (by rw [hregs _ x]; exact hi)
    rw [hi]; exact this
  have hstop := stopUpdate_step o (updateVars (envOf o num gk cols as) a.h a.regs a.cnt) (by
      intro f
      exact (congrFun key.1 f).trans (hd f)) a.calls (by
    intro c hc'
    exact ⟨(hholds c hc').2.1, fun hid => (hint c hc' hid).1, hc.2 c hc'⟩)
  refine ⟨updateVars (envOf o num gk cols as) a.h a.regs a.cnt, ?_, ?_⟩
  · unfold addRow
    show (stopUpdate o _ _).map _ = _
    rw [hstop]
    simp only [Option.map_some]
    congr 2
    apply List.map_congr_left
    intro c hc'
    simp only [after, List.foldl_cons, List.foldl_nil]
    by_cases hid : c.id = .count
    · rw [(hholds c hc').1, hcnt]; simp [stepC, hid]
    · rw [(hint c hc' hid).2, (hholds c hc').1, hcnt]
  · intro f
    exact (congrFun key.1 f).trans (hd f)

theorem CallsOf.after {cs : List (Call D)} (h : CallsOf as cs) (g : List Row) : CallsOf as (cs.map fun c => after num cols c g) := by
  refine ⟨?_, ?_⟩
  · rw [List.map_map, ← h.1]
    apply List.map_congr_left
    intro c _
    obtain ⟨a, b, d⟩ := after_id num cols c g
    simp [a, b, d]
  · intro c hc
    obtain ⟨x, hx, rfl⟩ := List.mem_map.1 hc
    exact after_bool _ _ _ _ (h.2 x hx)

/-- The loop over the rows of a group. -/
theorem groupLoop_spec {rows : List Row} (hf : Fit num gk cols as rows) (g l : List Row) (a : Agg D) (hg : ∀ r ∈ g, r ∈ rows ∧ keyOf gk r.2 = a.keys)
    (hl : ∀ r ∈ l, keyOf gk r.2 ≠ a.keys) (hc : CallsOf as a.calls) (hd : ∀ f, a.h.distinct f = false) :
    ∃ h', groupLoop (envOf o num gk cols as) (g ++ l) a = some { a with
        regs := (l.head?.map (·.2)).getD ((g.getLast?.map (·.2)).getD a.regs), cnt := (l.head?.map (·.1)).getD 0, rest := l.tail,
        calls := a.calls.map fun c => after num cols c g, h := h' } ∧ (∀ f, h'.distinct f = false) := by
  induction g generalizing a with
  | nil =>
    refine ⟨a.h, ?_, hd⟩
    match l, hl with
    | [], _ => simp [groupLoop, after]
    | r :: l, hl =>
      rw [List.nil_append, groupLoop, if_neg (by
        show ¬ sameKey gk _ _ = true
        rw [sameKey_iff]; exact hl r (by simp))]
      simp [after]
  | cons r g ih =>
    obtain ⟨hr, hk⟩ := hg r (by simp)
    obtain ⟨h1, e1, d1⟩ := addRow_spec (o := o) (a := { a with regs := r.2, cnt := r.1, rest := g ++ l }) hf hr hc hd rfl (fun _ _ => rfl)
    obtain ⟨h2, e2, d2⟩ := ih { a with regs := r.2, cnt := r.1, rest := g ++ l, calls := a.calls.map fun c => after num cols c [r], h := h1 }
      (fun x hx => hg x (List.mem_cons_of_mem _ hx)) hl (hc.after _) d1
    refine ⟨h2, ?_, d2⟩
    rw [List.cons_append, groupLoop, if_pos (show sameKey (envOf o num gk cols as).gk r.2 a.keys = true from sameKey_iff.2 hk), e1]
    simp only [Option.bind_some]
    rw [e2]
    congr 2
    · cases g with
      | nil => simp
      | cons s g =>
        obtain ⟨z, hz⟩ := (⟨_, List.getLast?_eq_some_getLast (by simp)⟩ : ∃ z, (s :: g).getLast? = some z)
        rw [List.getLast?_cons_cons, hz]; rfl
    · rw [List.map_map]
      rfl

/-- The value in the register of an aggregate with the result `x`. -/
def word (x : Int) : Nat := (x % (2 ^ 64 : Int)).toNat ||| 0x4000000000000000

/-- The result of an aggregate for the rows of a group. -/
def valueOf (o : Dbl D) (num : Nat → Num D) (cols : Nat → Nat) (a : Fn × Nat × Nat) (g : List Row) : Int :=
  resultC (after num cols { id := a.1, inVar := a.2.1, outVar := a.2.2, arg1Int := 0, arg2Int := 0, arg1Dec := o.zero, arg1Bool := true, arg2Bool := true } g)

theorem initCalls_of : CallsOf as (initCalls o as) := by
  refine ⟨?_, ?_⟩
  · rw [initCalls, List.map_map]
    exact List.map_id'' (fun _ => rfl) as
  · intro c hc
    obtain ⟨x, _, rfl⟩ := List.mem_map.1 hc
    rfl

/-- One group. -/
theorem processGroup_spec {rows : List Row} (hf : Fit num gk cols as rows) (r : Row) (g l : List Row) (a : Agg D) (hr : r ∈ rows)
    (hk : a.keys = keyOf gk r.2) (hg : ∀ s ∈ g, s ∈ rows ∧ keyOf gk s.2 = keyOf gk r.2)
    (hl : ∀ s ∈ l, s ∈ rows ∧ keyOf gk s.2 ≠ keyOf gk r.2) (hc : a.calls = initCalls o as) (hd : ∀ f, a.h.distinct f = false)
    (hcnt : a.cnt = r.1) (hrest : a.rest = g ++ l) (hregs : ∀ c, c ∉ gk → col a.regs c = col r.2 c)
    (hlast : l = [] → g = [] → keyOf gk a.regs = keyOf gk r.2) :
    ∃ a', processGroup (envOf o num gk cols as) a =
        some ((1, keyOf gk r.2 ++ as.map fun x => word (valueOf o num cols x (r :: g))), a') ∧
      a'.calls = initCalls o as ∧ (∀ f, a'.h.distinct f = false) ∧ a'.cnt = (l.head?.map (·.1)).getD 0 ∧ a'.rest = l.tail ∧
      ∀ s, l.head? = some s → a'.keys = keyOf gk s.2 ∧ ∀ c, c ∉ gk → col a'.regs c = col s.2 c := by
  have hcalls : CallsOf as a.calls := by rw [hc]; exact initCalls_of
  obtain ⟨h1, e1, d1⟩ := addRow_spec (o := o) hf hr hcalls hd hcnt hregs
  obtain ⟨h2, e2, d2⟩ := groupLoop_spec (o := o) hf g l { a with calls := a.calls.map fun c => after num cols c [r], h := h1 }
    (fun s hs => ⟨(hg s hs).1, by rw [(hg s hs).2]; exact hk.symm⟩) (fun s hs => by
      show _ ≠ a.keys
      rw [hk]; exact (hl s hs).2) (hcalls.after _) d1
  have hcs : (a.calls.map fun c => after num cols c [r]).map (fun c => after num cols c g) = a.calls.map fun c => after num cols c (r :: g) := by
    rw [List.map_map]; rfl
  simp only [hcs] at e2
  unfold processGroup
  rw [e1]
  simp only [Option.bind_some]
  rw [hrest] at e2
  rw [hrest, e2]
  simp only [Option.bind_some]
  -- the state after the exchange of the keys
  generalize hA : (if (l.head?.map (·.1)).getD 0 ≠ 0 then _ else _ : Agg D) = A
  have hAprop : A.calls = (a.calls.map fun c => after num cols c (r :: g)) ∧ A.h = h2 ∧ A.cnt = (l.head?.map (·.1)).getD 0 ∧ A.rest = l.tail ∧
      keyOf gk A.regs = keyOf gk r.2 ∧ ∀ s, l.head? = some s → A.keys = keyOf gk s.2 ∧ ∀ c, c ∉ gk → col A.regs c = col s.2 c := by
    match l, hl, hlast, hA with
    | [], _, hlast, hA =>
      simp only [List.head?_nil, Option.map_none, Option.getD_none, ne_eq, not_true, if_false] at hA
      rw [← hA]
      refine ⟨rfl, rfl, rfl, rfl, ?_, by simp⟩
      match g, hg, hlast with
      | [], _, hlast => exact hlast rfl rfl
      | s :: g, hg, _ =>
        obtain ⟨z, hz⟩ := (⟨_, List.getLast?_eq_some_getLast (by simp)⟩ : ∃ z, (s :: g).getLast? = some z)
        simp only [hz, Option.map_some, Option.getD_some]
        exact (hg z (List.mem_of_getLast? hz)).2
    | s :: l, hl, _, hA =>
      have hp := hf.pos s (hl s (by simp)).1
      simp only [List.head?_cons, Option.map_some, Option.getD_some, ne_eq, show ¬ s.1 = 0 by omega, not_false_eq_true, if_true] at hA
      obtain ⟨x, y, z⟩ := swapKeys_spec gk a.keys s.2 (by rw [hk]; simp [keyOf]) hf.nodup (hf.width s (hl s (by simp)).1)
      rw [← hA]
      refine ⟨rfl, rfl, rfl, rfl, ?_, ?_⟩
      · show gk.map (col (swapKeys gk a.keys s.2).1) = _
        rw [y, hk]
      · intro s' hs'
        simp only [List.head?_cons, Option.some.injEq] at hs'
        subst hs'
        exact ⟨x, z⟩
  obtain ⟨p1, p2, p3, p4, p5, p6⟩ := hAprop
  have hN := updateNulls_spec (envOf o num gk cols as).upd A.h
  have hcs' : CallsOf as A.calls := by rw [p1]; exact hcalls.after _
  obtain ⟨h3, e3, d3, _, o3⟩ := stopUpdate_nul o A.calls (updateNulls (envOf o num gk cols as) A.h) (by
      intro c hc'
      refine ⟨hN.2 _ (Or.inl ?_), hcs'.2 c hc', ?_⟩
      · simp only [envOf, List.map_map, List.mem_map]
        exact ⟨_, hcs'.mem hc', rfl⟩
      · intro hm
        rw [p1] at hc'
        obtain ⟨x, _, rfl⟩ := List.mem_map.1 hc'
        rw [(after_id _ _ _ _).1] at hm
        exact after_arg2 _ _ _ _ _ hm)
    (fun c hc' d hd' => hf.nest _ (hcs'.mem hc') _ (hcs'.mem hd')) (by
      have := hf.outs
      rw [← hcs'.1, List.map_map] at this
      exact this)
  refine ⟨{ A with calls := A.calls.map (Call.reset o), h := h3 }, ?_, ?_, ?_, p3, p4, p6⟩
  · show (stopUpdate o _ _).map _ = _
    rw [e3]
    simp only [Option.map_some]
    congr 3
    show keyOf gk A.regs ++ _ = _
    rw [p5]
    congr 1
    show (as.map fun a => a.2.2).map _ = _
    rw [List.map_map]
    apply List.map_congr_left
    intro x hx
    have hm : (after num cols { id := x.1, inVar := x.2.1, outVar := x.2.2, arg1Int := 0, arg2Int := 0, arg1Dec := o.zero, arg1Bool := true, arg2Bool := true } (r :: g)) ∈ A.calls := by
      rw [p1, hc]
      exact List.mem_map_of_mem (f := fun c => after num cols c (r :: g)) (List.mem_map_of_mem (f := fun a : Fn × Nat × Nat => (_ : Call D)) hx)
    have := o3 _ hm
    rw [(after_id _ _ _ _).2.2] at this
    simp only [Function.comp_apply, outValue, this.1, if_true, this.2, word, valueOf]
  · show A.calls.map _ = _
    rw [p1, hc, initCalls, List.map_map, List.map_map]
    apply List.map_congr_left
    intro x _
    simp only [Function.comp_apply, after_reset]
    rfl
  · intro f
    show h3.distinct f = false
    rw [d3]
    show ((updateNulls (envOf o num gk cols as) A.h).distinct f) = false
    exact (congrFun hN.1 f).trans (by rw [p2]; exact d2 f)

/-- The last group has more than one row. -/
def LastTwo (gk : List Nat) (l : List Row) : Prop :=
  ∀ x, l.getLast? = some x → 2 ≤ (l.filter fun s => keyOf gk s.2 == keyOf gk x.2).length

/-- The rows of the groups. -/
theorem nexts_spec {rows : List Row} (hf : Fit num gk cols as rows) (n : Nat) (r : Row) (l : List Row) (a : Agg D) (hm : ∀ s ∈ r :: l, s ∈ rows)
    (hs : (r :: l).Pairwise (fun a b => ltF gk b.2 a.2 = false)) (hn : l.length + 1 ≤ n) (hk : a.keys = keyOf gk r.2)
    (hc : a.calls = initCalls o as) (hd : ∀ f, a.h.distinct f = false)
    (hcnt : a.cnt = r.1) (hrest : a.rest = l) (hregs : ∀ c, c ∉ gk → col a.regs c = col r.2 c)
    (hlast : LastTwo gk (r :: l) ∨ keyOf gk a.regs = keyOf gk r.2 ∧ ∀ s ∈ l, keyOf gk s.2 = keyOf gk r.2) :
    ∃ ks : List (List Nat), ks.Nodup ∧ (∀ k, k ∈ ks ↔ ∃ s ∈ r :: l, keyOf gk s.2 = k) ∧
      nexts (envOf o num gk cols as) n a = some (ks.map fun k =>
        (1, k ++ as.map fun x => word (valueOf o num cols x ((r :: l).filter fun s => keyOf gk s.2 == k)))) := by
  induction n generalizing r l a with
  | zero => omega
  | succ n ih =>
    obtain ⟨g, l', rfl, hg, hl'⟩ := sorted_split hs
    have hfil : (r :: (g ++ l')).filter (fun s => keyOf gk s.2 == keyOf gk r.2) = r :: g := by
      rw [List.filter_cons_of_pos (by simp), List.filter_append, List.filter_eq_self.2 (by simpa using hg),
        List.filter_eq_nil_iff.2 (by simpa using hl'), List.append_nil]
    obtain ⟨a', e, c', d', cnt', rest', hd'⟩ := processGroup_spec (o := o) hf r g l' a (hm r (by simp)) hk
      (fun s hs => ⟨hm s (by simp [hs]), hg s hs⟩) (fun s hs => ⟨hm s (by simp [hs]), hl' s hs⟩) hc hd hcnt hrest hregs (by
        rintro rfl rfl
        rcases hlast with h | h
        · have := h r (by simp)
          rw [hfil] at this
          simp at this
        · exact h.1)
    have hp := hf.pos r (hm r (by simp))
    rw [nexts, if_neg (by omega), e]
    simp only [Option.bind_some]
    match l', hl', hd', cnt', rest', hm, hs, hn, hlast, hfil with
    | [], _, _, cnt', _, _, _, _, _, hfil =>
      refine ⟨[keyOf gk r.2], by simp, ?_, ?_⟩
      · intro k
        rw [List.mem_singleton]
        simp only [List.append_nil, List.mem_cons]
        constructor
        · rintro rfl; exact ⟨r, Or.inl rfl, rfl⟩
        · rintro ⟨s, rfl | hs, rfl⟩
          · rfl
          · exact hg s hs
      · have h0 : a'.cnt = 0 := by simpa using cnt'
        have : nexts (envOf o num gk cols as) n a' = some [] := by
          cases n with
          | zero => rfl
          | succ n => rw [nexts, if_pos h0]
        rw [this, List.map_singleton, hfil]
        rfl
    | x :: l', hl', hd', cnt', rest', hm, hs, hn, hlast, hfil =>
      obtain ⟨hk', hregs'⟩ := hd' x rfl
      obtain ⟨ks, hnd, hmem, he⟩ := ih x l' a' (fun s hs => hm s (by simp only [List.mem_cons, List.mem_append] at hs ⊢; exact Or.inr (Or.inr hs)))
        ((List.pairwise_append.1 (List.pairwise_cons.1 hs).2).2.1) (by simp at hn; omega) hk' c' d' (by simpa using cnt') (by simpa using rest') hregs' (by
          rcases hlast with h | h
          · left
            intro z hz
            have hz' : (r :: (g ++ x :: l')).getLast? = some z := by
              rw [← List.cons_append, List.getLast?_append, hz]; rfl
            have := h z hz'
            have hzk : keyOf gk z.2 ≠ keyOf gk r.2 := hl' z (List.mem_of_getLast? hz)
            have hnil : (r :: g).filter (fun s => keyOf gk s.2 == keyOf gk z.2) = [] := by
              rw [List.filter_eq_nil_iff]
              intro s hs
              rcases List.mem_cons.1 hs with rfl | hs
              · simpa using Ne.symm hzk
              · rw [hg s hs]; simpa using Ne.symm hzk
            rw [← List.cons_append, List.filter_append, hnil] at this
            simpa using this
          · exact absurd (h.2 x (by simp)) (hl' x (by simp)))
      have hne : ∀ k ∈ ks, k ≠ keyOf gk r.2 := by
        intro k hk2
        obtain ⟨s, hs2, rfl⟩ := (hmem k).1 hk2
        exact hl' s hs2
      refine ⟨keyOf gk r.2 :: ks, List.nodup_cons.2 ⟨fun h => hne _ h rfl, hnd⟩, ?_, ?_⟩
      · intro k
        rw [List.mem_cons, hmem]
        constructor
        · rintro (rfl | ⟨s, hs2, rfl⟩)
          · exact ⟨r, by simp, rfl⟩
          · exact ⟨s, by simp only [List.mem_cons, List.mem_append] at hs2 ⊢; exact Or.inr (Or.inr hs2), rfl⟩
        · rintro ⟨s, hs2, rfl⟩
          simp only [List.mem_cons, List.mem_append] at hs2
          rcases hs2 with rfl | hs2 | hs2
          · exact Or.inl rfl
          · exact Or.inl (hg s hs2)
          · exact Or.inr ⟨s, by simpa using hs2, rfl⟩
      · rw [he, List.map_cons, hfil]
        simp only [Option.map_some]
        congr 2
        apply List.map_congr_left
        intro k hk2
        congr 3
        funext y
        congr 2
        have hnil : (r :: g).filter (fun s => keyOf gk s.2 == k) = [] := by
          rw [List.filter_eq_nil_iff]
          intro s hs2
          rcases List.mem_cons.1 hs2 with rfl | hs2
          · simpa using Ne.symm (hne k hk2)
          · rw [hg s hs2]; simpa using Ne.symm (hne k hk2)
        rw [← List.cons_append, List.filter_append, hnil, List.nil_append]

end

end Trident.Sparql
