import Verif.Update.MergeCrash
import Verif.Props.MergeUpdates
/-!
# C28: interrupted merging of updates
-/
namespace Trident
open Load Upd

/-! ## Helpers -/

theorem ofDisk_disk (D : Disk) : (NDir.ofDisk D).disk = D := by
  cases D with
  | mk glob ups =>
    show Disk.mk glob ((ups.mapIdx fun i u => (i, u)).map (·.2)) = _
    congr 1
    apply List.ext_getElem
    · simp
    · intro i h1 h2; simp

/-- A directory shows one content only. -/
theorem shows_unique {kb : KB} {E : UEnv} {D : Disk} {d : Order} {P Q : Triple → Prop} (hP : Shows kb E D d P) (hQ : Shows kb E D d Q) : ∀ t, P t ↔ Q t := by
  obtain ⟨M, hM⟩ := exists_mapping D
  let q : Pattern := ⟨none, none, none⟩
  have hq : q.Wf := by intro x v h; cases x <;> cases h
  have hn : ∀ x, (q.at x).isSome → False := by intro x; cases x <;> simp [q, Pattern.at]
  have hm : ∀ t, q.Matches t := by intro t x v h; cases x <;> cases h
  obtain ⟨o1, a1, -, b1⟩ := hP M hM q hq (fun h => (hn _ h).elim) (fun h => (hn _ h).elim)
  obtain ⟨o2, a2, -, b2⟩ := hQ M hM q hq (fun h => (hn _ h).elim) (fun h => (hn _ h).elim)
  obtain ⟨i1, e1, a1⟩ := a1
  obtain ⟨i2, e2, a2⟩ := a2
  rw [e1] at e2
  cases e2
  obtain rfl := Yields.unique a1 a2
  intro t
  constructor
  · intro h
    obtain ⟨t', h1, -, e⟩ := (b2 _).1 ((b1 _).2 ⟨t, h, hm t, rfl⟩)
    exact C20_injective d _ _ e ▸ h1
  · intro h
    obtain ⟨t', h1, -, e⟩ := (b1 _).1 ((b2 _).2 ⟨t, h, hm t, rfl⟩)
    exact C20_injective d _ _ e ▸ h1

theorem createSingle_ups {kb E S rnd add itr n N N'} (h : createSingle kb E S rnd add itr n N = some N') :
    N' = N ∧ (∀ N₁, createSingle kb E S rnd add itr n N₁ = some N₁) ∨ N'.ups ≠ [] := by
  have hw : ∀ a ts, (N.write S rnd n a ts).ups ≠ [] := by
    intro a ts
    show insertNum n _ N.ups ≠ []
    cases N.ups with
    | nil => simp [insertNum]
    | cons e l => simp only [insertNum]; split <;> simp
  unfold createSingle at h ⊢
  cases itr with
  | none => cases h
  | some o =>
    simp only at h ⊢
    by_cases h1 : ((drain o.I E.fuel o.s).map rowT3).isEmpty
    · simp only [h1, if_true] at h ⊢
      exact .inl ⟨(Option.some.inj h).symm, fun _ => by first | rfl | trivial⟩
    · simp only [h1] at h ⊢
      cases add with
      | true =>
        simp only [if_true, Bool.false_eq_true, if_false] at h
        exact .inr ((Option.some.inj h) ▸ hw _ _)
      | false =>
        simp only [Bool.false_eq_true, if_false] at h ⊢
        cases hk : kb.getIteratorU E [] 0 (-1) (-1) (-1) with
        | itr b =>
          simp only [hk] at h ⊢
          by_cases h2 : (matched b.I false E.fuel b.s ((drain o.I E.fuel o.s).map rowT3)).isEmpty
          · simp only [h2, if_true] at h ⊢
            exact .inl ⟨(Option.some.inj h).symm, fun _ => by first | rfl | trivial⟩
          · simp only [h2, Bool.false_eq_true, if_false] at h
            exact .inr ((Option.some.inj h) ▸ hw _ _)
        | _ => simp [hk] at h

theorem newDiff_nothing {kb E S rnd ds N} (h : newDiff kb E S rnd ds = some N) (hN : N.ups = []) (N₀ : NDir) : newDiffFrom kb E S rnd ds N₀ = some N₀ := by
  have key : ∀ {rnd add itr n N N'}, createSingle kb E S rnd add itr n N = some N' → N'.ups = [] → N' = N ∧ createSingleFrom kb E S rnd add itr n N₀ = some N₀ := by
    intro rnd add itr n N N' hc he
    rcases createSingle_ups hc with ⟨a, b⟩ | a
    · refine ⟨a, ?_⟩
      unfold createSingleFrom
      rw [b N₀]
      simp
    · exact absurd he a
  have grow : ∀ {rnd add itr n N N'}, createSingle kb E S rnd add itr n N = some N' → N'.ups = [] → N.ups = [] := by
    intro rnd add itr n N N' hc he
    rw [← (key hc he).1]; exact he
  unfold newDiff at h
  unfold newDiffFrom
  simp only at h ⊢
  by_cases c1 : (ds.filter fun d => d.1.add).length ≥ 1
  · rw [if_pos c1] at h ⊢
    cases e1 : createSingle kb E S (rnd 0) true (summary E ds true) 0 NDir.empty with
    | none => rw [e1] at h; cases h
    | some N1 =>
      rw [e1] at h
      simp only at h
      by_cases c2 : (ds.filter fun d => !d.1.add).length ≥ 1
      · rw [if_pos c2] at h
        rw [(key e1 (grow h hN)).2]
        simp only
        rw [if_pos c2]
        exact (key h hN).2
      · rw [if_neg c2] at h
        obtain rfl := Option.some.inj h
        rw [(key e1 hN).2]
        simp only
        rw [if_neg c2]
  · rw [if_neg c1] at h ⊢
    simp only at h ⊢
    by_cases c2 : (ds.filter fun d => !d.1.add).length ≥ 1
    · rw [if_pos c2] at h ⊢
      exact (key h hN).2
    · rw [if_neg c2]

theorem merge_failed {kb E S rnd M X} (h : mergeUpdates kb E S rnd M X = .failed) (N₀ : NDir) : mergeUpdatesFrom kb E S rnd M X N₀ = .done N₀ := by
  unfold mergeUpdates at h
  unfold mergeUpdatesFrom
  simp only at h ⊢
  by_cases c : (((X.disk.opened M).zip X.ns).filter fun d => d.1.add).length ≤ 1 ∧ (((X.disk.opened M).zip X.ns).filter fun d => !d.1.add).length ≤ 1
  · rw [if_pos c] at h; cases h
  · rw [if_neg c] at h ⊢
    cases e : newDiff kb E S rnd ((X.disk.opened M).zip X.ns) with
    | none => rw [e] at h; cases h
    | some N =>
      rw [e] at h
      simp only at h
      by_cases hN : N.ups.isEmpty
      · rw [newDiff_nothing e (by simpa using hN) N₀]
      · rw [if_neg hN] at h; cases h

/-! ## Theorems -/

/-- **C28 (part).** If merging stops before the first rename, with whatever in `_newdiff`, the content is what it was, for every history. -/
theorem C28_before_renames_partial (kb : KB) (g : List Triple) (E : UEnv) (S : Diff3.Sorts) (rnd : Nat → Nat → Nat → Bool × Bool) (M : Nat → Disk → Mapping)
    (ops : List (Bool × List T3)) (D : Disk) (H : AfterHistory kb g E S rnd M ops D) (L : InLimits g E ops) (F : Dirs) (hF : F.diff = some (NDir.ofDisk D))
    (N : NDir) (N' O : Option NDir) : ∀ d, kb.Reads d → Shows kb E (F.mergeStopped N (.writing N' O)).opened d (content g ops) := by
  intro d hd
  obtain ⟨g', us, A⟩ := H.facts L
  have h1 := A.len
  have h2 := A.vol
  have h3 := L.fuel
  have e : (F.mergeStopped N (.writing N' O)).opened = D := by
    show F.diff.elim Disk.empty NDir.disk = D
    rw [hF]; exact ofDisk_disk D
  rw [e]
  exact shows_of A.loaded A.nodup A.ne H.envOk (A.disk.holdsAt d) A.disk.fresh (by omega) hd A.sem

/-- **C28 (part).** If merging stops before the first rename or after the second, the content is what it was, under the conditions of `C26_merge_partial`. -/
theorem C28_crash_partial (kb : KB) (g : List Triple) (E : UEnv) (S : Diff3.Sorts) (sortT : Sorter) (base : Obj) (rnd : Nat → Nat → Nat → Bool × Bool) (M : Nat → Disk → Mapping)
    (ops : List (Bool × List T3)) (X : Counted) (H : Recorded26 kb g E S sortT base rnd M ops X) (L : InLimits g E ops) (hv : volume ops < 2 ^ 24)
    (hs : SubjectsChange (· ∈ g) (requests ops)) (hb : NeverBack g (· ∈ g) (requests ops)) (M' : Mapping) (hM' : M'.Of X.disk) (rnd' : Nat → Nat → Nat → Bool × Bool)
    (N : NDir) (hN : mergeUpdates kb E S rnd' M' X = .done N) (F : Dirs) (hF : F.diff = some (NDir.ofDisk X.disk)) (p : MergePoint) (hp : p ≠ .renamed) :
    ∀ d, kb.Reads d → Shows kb E (F.mergeStopped N p).opened d (content g ops) := by
  cases p with
  | writing N' O =>
    obtain ⟨-, -, e⟩ := H.facts L
    exact C28_before_renames_partial kb g E S rnd M ops X.disk ⟨H.ground.loaded, H.ground.notEmpty, H.ground.reads, H.ground.envOk, H.ground.sortsOk, H.mapped, e⟩ L F hF N N' O
  | renamed => exact absurd rfl hp
  | finished =>
    obtain ⟨D, e, h⟩ := (C26_merge_partial kb g E S sortT base rnd M ops X H L hv hs hb M' hM' rnd').1
    rw [hN] at e
    obtain rfl := Option.some.inj e
    exact h

/-- C28 is false: if merging stops between the two renames, all updates are lost. -/
theorem C28_between_renames_violated (kb : KB) (g : List Triple) (E : UEnv) (hl : Loaded kb g) (hn : g.Nodup) (hg : g ≠ []) (hE : E.Ok) (hf : g.length < E.fuel)
    (F : Dirs) (N : NDir) (d : Order) (hd : kb.Reads d) :
    Shows kb E (F.mergeStopped N .renamed).opened d (· ∈ g) ∧ ∀ ops t, ¬ (content g ops t ↔ t ∈ g) → ¬ Shows kb E (F.mergeStopped N .renamed).opened d (content g ops) := by
  have h : Shows kb E (F.mergeStopped N .renamed).opened d (· ∈ g) :=
    shows_of hl hn hg hE ((DiskOk.empty g).holdsAt d) trivial (by simpa using hf) hd (P := (· ∈ g)) fun t => Iff.rfl
  exact ⟨h, fun ops t ht hs => ht (shows_unique hs h t)⟩

/-- C28 is false: what an interrupted merge left in `_newdiff` is taken over by a later one.  If merging after `ops` writes `N` and stops before the renames, and later
requests `more` undo all changes, then merging again brings the changes of `ops` back. -/
theorem C28_stale_newdiff_violated (kb : KB) (g : List Triple) (E : UEnv) (S : Diff3.Sorts) (sortT : Sorter) (base : Obj) (rnd : Nat → Nat → Nat → Bool × Bool) (M : Nat → Disk → Mapping)
    (ops more : List (Bool × List T3)) (X Y : Counted) (H : Recorded26 kb g E S sortT base rnd M ops X) (H' : Recorded26 kb g E S sortT base rnd M (ops ++ more) Y)
    (L : InLimits g E (ops ++ more)) (hv : volume (ops ++ more) < 2 ^ 24) (hs : SubjectsChange (· ∈ g) (requests ops)) (hb : NeverBack g (· ∈ g) (requests ops))
    (hs' : SubjectsChange (· ∈ g) (requests (ops ++ more))) (hb' : NeverBack g (· ∈ g) (requests (ops ++ more))) (M' M'' : Mapping) (hM' : M'.Of X.disk) (hM'' : M''.Of Y.disk)
    (rnd' rnd'' : Nat → Nat → Nat → Bool × Bool) (N : NDir) (hN : mergeUpdates kb E S rnd' M' X = .done N) (hundo : ∀ t, content g (ops ++ more) t ↔ t ∈ g)
    (htwo : mergeUpdates kb E S rnd'' M'' Y ≠ .same) :
    mergeUpdatesFrom kb E S rnd'' M'' Y N = .done N ∧ ∀ d, kb.Reads d → Shows kb E N.disk d (content g ops) := by
  have l1 := L.volume
  have l2 := L.fuel
  rw [volume_append] at l1 l2 hv
  have L0 : InLimits g E ops := ⟨L.fit.left, by omega, by omega⟩
  obtain ⟨us, N1, TA, TR, A, P, ⟨f1, f2⟩, hAg, e⟩ := H'.merged L (by rw [volume_append]; exact hv) hs' hb' hM'' rnd''
  constructor
  · refine merge_failed ?_ N
    rw [e] at htwo ⊢
    by_cases c : (us.filter fun u => isAdd u == true).length ≤ 1 ∧ (us.filter fun u => isAdd u == false).length ≤ 1
    · rw [if_pos c] at htwo; exact absurd rfl htwo
    · rw [if_neg c, if_pos]
      obtain ⟨-, -, f3, f4, f5⟩ := net_fold (g := g) (A := []) (R := []) A.ok.disk.fresh (by simp) (by simp) (by simp)
      have hTA : TA = [] := by
        cases TA with
        | nil => rfl
        | cons x l =>
          have hx := (P.memA x.triple).1 (by simp)
          exact absurd ((hundo _).1 ((A.sem _).1 (f3 _ (List.mem_filter.1 hx).1))) (hAg _ hx)
      have hTR : TR = [] := by
        cases TR with
        | nil => rfl
        | cons x l =>
          have hx := (P.memR x.triple).1 (by simp)
          exact absurd ((A.sem _).2 ((hundo _).2 hx.2)) (f4 _ (List.mem_filter.1 hx.1).1)
      rw [P.ups, hTA, hTR]; rfl
  · obtain ⟨D, e', h⟩ := (C26_merge_partial kb g E S sortT base rnd M ops X H L0 (by omega) hs hb M' hM' rnd').1
    rw [hN] at e'
    obtain rfl := Option.some.inj e'
    exact h

/-! ## Non-vacuity -/

/-- Two subjects are added … -/
def exAdds : List (Bool × List T3) := [(true, [(7, 8, 9)]), (true, [(8, 1, 1)])]

/-- … and deleted again. -/
def exDels : List (Bool × List T3) := [(false, [(7, 8, 9)]), (false, [(8, 1, 1)])]

theorem exAdds1 (t : Triple) : holdsAfter (· ∈ exTwo.map T3.triple) (requests [(true, [(7, 8, 9)])]) t ↔ t = ⟨1, 2, 3⟩ ∨ t = ⟨4, 5, 6⟩ ∨ t = ⟨7, 8, 9⟩ := by
  show t ∈ exTwo.map T3.triple ∨ t ∈ [((7, 8, 9) : T3)].map T3.triple ↔ _
  simp [exTwo, T3.triple, or_assoc]

theorem exAdds2 (t : Triple) : holdsAfter (· ∈ exTwo.map T3.triple) (requests exAdds) t ↔ t = ⟨1, 2, 3⟩ ∨ t = ⟨4, 5, 6⟩ ∨ t = ⟨7, 8, 9⟩ ∨ t = ⟨8, 1, 1⟩ := by
  show (t ∈ exTwo.map T3.triple ∨ t ∈ [((7, 8, 9) : T3)].map T3.triple) ∨ t ∈ [((8, 1, 1) : T3)].map T3.triple ↔ _
  simp [exTwo, T3.triple, or_assoc]

theorem exAdds3 (t : Triple) : holdsAfter (· ∈ exTwo.map T3.triple) (requests (exAdds ++ [(false, [(7, 8, 9)])])) t ↔ t = ⟨1, 2, 3⟩ ∨ t = ⟨4, 5, 6⟩ ∨ t = ⟨8, 1, 1⟩ := by
  show holdsAfter (· ∈ exTwo.map T3.triple) (requests exAdds) t ∧ t ∉ [((7, 8, 9) : T3)].map T3.triple ↔ _
  rw [exAdds2]
  constructor
  · rintro ⟨rfl | rfl | rfl | rfl, h⟩
    · exact .inl rfl
    · exact .inr (.inl rfl)
    · exact absurd (by decide) h
    · exact .inr (.inr rfl)
  · rintro (rfl | rfl | rfl)
    · exact ⟨.inl rfl, by decide⟩
    · exact ⟨.inr (.inl rfl), by decide⟩
    · exact ⟨.inr (.inr (.inr rfl)), by decide⟩

theorem exAdds4 (t : Triple) : holdsAfter (· ∈ exTwo.map T3.triple) (requests (exAdds ++ exDels)) t ↔ t ∈ exTwo.map T3.triple := by
  show holdsAfter (· ∈ exTwo.map T3.triple) (requests (exAdds ++ [(false, [(7, 8, 9)])])) t ∧ t ∉ [((8, 1, 1) : T3)].map T3.triple ↔ _
  rw [exAdds3]
  constructor
  · rintro ⟨rfl | rfl | rfl, h⟩
    · decide
    · decide
    · exact absurd (by decide) h
  · intro h
    simp [exTwo, T3.triple] at h
    rcases h with rfl | rfl
    · exact ⟨.inl rfl, by decide⟩
    · exact ⟨.inr (.inl rfl), by decide⟩

theorem exAdds_subjects : SubjectsChange (· ∈ exTwo.map T3.triple) (requests exAdds) ∧ SubjectsChange (· ∈ exTwo.map T3.triple) (requests (exAdds ++ exDels)) := by
  have h1 : ¬ ((∃ t, t ∈ exTwo.map T3.triple ∧ t.s = 7) ↔ ∃ t, holdsAfter (· ∈ exTwo.map T3.triple) (requests [(true, [(7, 8, 9)])]) t ∧ t.s = 7) := fun h => by
    obtain ⟨t, ht, e⟩ := h.2 ⟨⟨7, 8, 9⟩, (exAdds1 _).2 (by simp), rfl⟩
    simp [exTwo, T3.triple] at ht
    rcases ht with rfl | rfl <;> simp at e
  have h2 : ¬ ((∃ t, holdsAfter (· ∈ exTwo.map T3.triple) (requests [(true, [(7, 8, 9)])]) t ∧ t.s = 8) ↔ ∃ t, holdsAfter (· ∈ exTwo.map T3.triple) (requests exAdds) t ∧ t.s = 8) := fun h => by
    obtain ⟨t, ht, e⟩ := h.2 ⟨⟨8, 1, 1⟩, (exAdds2 _).2 (by simp), rfl⟩
    rcases (exAdds1 t).1 ht with rfl | rfl | rfl <;> simp at e
  have h3 : ¬ ((∃ t, holdsAfter (· ∈ exTwo.map T3.triple) (requests exAdds) t ∧ t.s = 7) ↔
      ∃ t, holdsAfter (· ∈ exTwo.map T3.triple) (requests (exAdds ++ [(false, [(7, 8, 9)])])) t ∧ t.s = 7) := fun h => by
    obtain ⟨t, ht, e⟩ := h.1 ⟨⟨7, 8, 9⟩, (exAdds2 _).2 (by simp), rfl⟩
    rcases (exAdds3 t).1 ht with rfl | rfl | rfl <;> simp at e
  have h4 : ¬ ((∃ t, holdsAfter (· ∈ exTwo.map T3.triple) (requests (exAdds ++ [(false, [(7, 8, 9)])])) t ∧ t.s = 8) ↔
      ∃ t, holdsAfter (· ∈ exTwo.map T3.triple) (requests (exAdds ++ exDels)) t ∧ t.s = 8) := fun h => by
    obtain ⟨t, ht, e⟩ := h.1 ⟨⟨8, 1, 1⟩, (exAdds3 _).2 (by simp), rfl⟩
    have ht := (exAdds4 t).1 ht
    simp [exTwo, T3.triple] at ht
    rcases ht with rfl | rfl <;> simp at e
  refine ⟨?_, ?_⟩
  · refine ⟨.inr ⟨7, h1⟩, .inr ⟨8, h2⟩, trivial⟩
  · refine ⟨.inr ⟨7, h1⟩, .inr ⟨8, h2⟩, .inr ⟨7, h3⟩, .inr ⟨8, h4⟩, trivial⟩

theorem exAdds_back : NeverBack (exTwo.map T3.triple) (· ∈ exTwo.map T3.triple) (requests exAdds) ∧
    NeverBack (exTwo.map T3.triple) (· ∈ exTwo.map T3.triple) (requests (exAdds ++ exDels)) := by
  have h2 : ∀ ts, request true [((8, 1, 1) : T3)] = .add ts → ∀ t ∈ ts, t ∈ exTwo.map T3.triple → holdsAfter (· ∈ exTwo.map T3.triple) (requests [(true, [(7, 8, 9)])]) t := by
    intro ts e t ht hg
    obtain rfl : [((8, 1, 1) : T3)].map T3.triple = ts := Update.add.inj e
    simp [exTwo, T3.triple] at ht hg
    rcases hg with rfl | rfl <;> simp at ht
  refine ⟨⟨fun ts e t ht hg => hg, h2, trivial⟩, ?_⟩
  refine ⟨?_, ?_, ?_, ?_, trivial⟩
  · exact fun ts e t ht hg => hg
  · exact h2
  · exact fun ts e => nomatch e
  · exact fun ts e => nomatch e

theorem not_same {r : MergeRes} {c : Prop} [Decidable c] {N : NDir} (e : r = if c then .failed else .done N) : r ≠ .same := by
  rw [e]; split <;> simp

/-- The hypotheses of the theorems hold: two additions are merged (`N`), the content is that of the additions; then they are undone, and merging is still done. -/
example : ∃ kb g E S, ∃ sortT base rnd M X Y M' M'' N, Recorded26 kb g E S sortT base rnd M exAdds X ∧ Recorded26 kb g E S sortT base rnd M (exAdds ++ exDels) Y ∧
    InLimits g E (exAdds ++ exDels) ∧ SubjectsChange (· ∈ g) (requests exAdds) ∧ NeverBack g (· ∈ g) (requests exAdds) ∧
    SubjectsChange (· ∈ g) (requests (exAdds ++ exDels)) ∧ NeverBack g (· ∈ g) (requests (exAdds ++ exDels)) ∧ M'.Of X.disk ∧ M''.Of Y.disk ∧
    mergeUpdates kb E S rnd M' X = .done N ∧ (∀ t, content g (exAdds ++ exDels) t ↔ t ∈ g) ∧ mergeUpdates kb E S rnd M'' Y ≠ .same ∧
    (∃ t, content g exAdds t ∧ t ∉ g) ∧ mergeUpdatesFrom kb E S rnd M'' Y N = .done N ∧ kb.Reads .spo := by
  obtain ⟨m, Mm, hMm, G⟩ := exTwo_ground
  have hM := fun (_ : Nat) (D : Disk) => Classical.choose_spec (exists_mapping D)
  have L2 : InLimits (exTwo.map T3.triple) exEnv (exAdds ++ exDels) := ⟨⟨by decide, by decide⟩, by decide, by decide⟩
  have L : InLimits (exTwo.map T3.triple) exEnv exAdds := ⟨⟨by decide, by decide⟩, by decide, by decide⟩
  obtain ⟨X1, s1, c1, k1⟩ := G.step_alone (fun _ _ => (true, false)) (CountedOk.empty msort exEnv.fuel _ _) trivial (hM 0 _) true (a := (7, 8, 9)) (by unfold Fits; decide) (by decide) (by decide)
    (by decide) (by decide)
  obtain ⟨X, s2, c2, k2⟩ := G.step_alone (fun _ _ => (true, false)) c1 k1 (hM 1 _) true (a := (8, 1, 1)) (by unfold Fits; decide) (by decide) (by decide) (by decide) (by decide)
  obtain ⟨X3, s3, c3, k3⟩ := G.step_alone (fun _ _ => (true, false)) c2 k2 (hM 2 _) false (a := (7, 8, 9)) (by unfold Fits; decide) (by decide) (by decide) (by decide) (by decide)
  obtain ⟨Y, s4, c4, k4⟩ := G.step_alone (fun _ _ => (true, false)) c3 k3 (hM 3 _) false (a := (8, 1, 1)) (by unfold Fits; decide) (by decide) (by decide) (by decide) (by decide)
  have H : Recorded26 _ _ _ _ _ _ (fun _ _ _ => (true, false)) _ exAdds X := ⟨G, hM, updatesC_cons s1 (updatesC_cons s2 rfl)⟩
  have H' : Recorded26 _ _ _ _ _ _ (fun _ _ _ => (true, false)) _ (exAdds ++ exDels) Y :=
    ⟨G, hM, updatesC_cons s1 (updatesC_cons s2 (updatesC_cons s3 (updatesC_cons s4 rfl)))⟩
  obtain ⟨us, N, TA, TR, F, P, -, hAg, e⟩ := H.merged L (by decide) exAdds_subjects.1 exAdds_back.1 (hM 0 X.disk) (fun _ _ _ => (true, false))
  obtain ⟨us', N', TA', TR', F', P', -, hAg', e'⟩ := H'.merged L2 (by decide) exAdds_subjects.2 exAdds_back.2 (hM 0 Y.disk) (fun _ _ _ => (true, false))
  obtain ⟨-, -, f3, f4, f5⟩ := net_fold (g := exTwo.map T3.triple) (A := []) (R := []) F.ok.disk.fresh (by simp) (by simp) (by simp)
  have hA : (⟨7, 8, 9⟩ : Triple) ∈ sumOf true us := by
    rcases (f5 ⟨7, 8, 9⟩).1 ((F.sem _).2 ((exAdds2 _).2 (by simp))) with h | h
    · exact h
    · exact absurd h.1 (by decide)
  have hA0 : (⟨7, 8, 9⟩ : Triple) ∉ sumOf false us := fun h => f4 _ h (f3 _ hA)
  have hA' : (⟨7, 8, 9⟩ : Triple) ∈ left true us := List.mem_filter.2 ⟨hA, by simpa using hA0⟩
  have hTA : TA.isEmpty = false := by
    cases TA with
    | nil => exact absurd ((P.memA _).2 hA') (by simp)
    | cons => rfl
  rw [if_neg (by rw [kinds_unique F.ok c2 true]; exact fun h => absurd h.1 (by decide)), if_neg (by rw [P.ups, hTA]; simp)] at e
  rw [if_neg (by rw [kinds_unique F'.ok c4 true]; exact fun h => absurd h.1 (by decide))] at e'
  have hns := not_same e'
  exact ⟨_, _, _, _, _, _, _, _, X, Y, _, _, N, H, H', L2, exAdds_subjects.1, exAdds_back.1, exAdds_subjects.2, exAdds_back.2, hM 0 X.disk, hM 0 Y.disk, e, exAdds4, hns,
    ⟨⟨7, 8, 9⟩, (exAdds2 _).2 (by simp), by decide⟩,
    (C28_stale_newdiff_violated _ _ _ _ _ _ _ _ _ _ X Y H H' L2 (by decide) exAdds_subjects.1 exAdds_back.1 exAdds_subjects.2 exAdds_back.2 _ _ (hM 0 X.disk) (hM 0 Y.disk) _ _ N e exAdds4 hns).1,
    G.reads⟩

end Trident
