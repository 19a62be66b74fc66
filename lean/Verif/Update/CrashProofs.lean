import Verif.Update.Crash
import Verif.Update.Bag
/-! Helper proofs for interrupted updates (no property statements here). -/
namespace Trident.Upd
open Load Diff3

/-- In the order `d`, the directory holds the batches `us`. -/
structure HoldsAt (D : Disk) (d : Order) (us : List Update) : Prop where
  len : D.ups.length = us.length
  ups : ∀ i (h : i < us.length) (h' : i < D.ups.length), D.ups[i].add = isAdd us[i] ∧ us[i].triples.Nodup ∧
    ∀ M : Mapping, M.Of D → DiffOkAt (openDiff D.ups[i].add M.mem (if D.ups[i].small then M.gbase else M.obase i) D.ups[i].out) d us[i].triples

theorem freshAll_nodup {g : List Triple} {us : List Update} (h : FreshAll g us) : ∀ u ∈ us, u.triples.Nodup := by
  induction us generalizing g with
  | nil => intro u hu; simp at hu
  | cons v us ih =>
    intro u hu
    rcases List.mem_cons.1 hu with rfl | hu
    · have := h.1
      cases u with
      | add ts => exact this.1
      | del ts => exact this.1
    · exact ih h.2 u hu

theorem DiskOk.holdsAt {g D us} (h : DiskOk g D us) (d : Order) : HoldsAt D d us where
  len := h.len
  ups i hi hi' := ⟨(h.ups i hi hi').1, freshAll_nodup h.fresh _ (List.getElem_mem _), fun M hM => ((h.ups i hi hi').2 M hM).at d⟩

theorem HoldsAt.query {kb : KB} {g : List Triple} (h : Loaded kb g) (hgn : g.Nodup) {E : UEnv} (hE : E.Ok) {D : Disk} {d : Order} {us : List Update}
    (hD : HoldsAt D d us) {M : Mapping} (hM : M.Of D) (hf : g.length + (us.map (·.triples.length)).sum < E.fuel) (q : Pattern) (hq : q.Wf) (hd : kb.Reads d)
    (h1 : (q.at d.positions.2.1).isSome → (q.at d.positions.1).isSome)
    (h2 : (q.at d.positions.2.2).isSome → (q.at d.positions.2.1).isSome)
    (hg : g ≠ [] ∨ (q.at d.positions.1).isSome) :
    (DelOk (fun t => decide (q.Matches t)) g us →
      ∃ out, (kb.getIteratorU E (D.opened M) d.idx (argOfPos q.s) (argOfPos q.p) (argOfPos q.o)).Returns out ∧
        out.Pairwise Row3.nl ∧ out.Perm (((applyAll g us).filter fun t => decide (q.Matches t)).map d.row)) ∧
    (¬ DelOk (fun t => decide (q.Matches t)) g us →
      kb.getIteratorU E (D.opened M) d.idx (argOfPos q.s) (argOfPos q.p) (argOfPos q.o) = .undef) := by
  refine updates_query_bag h hgn hE us (D.opened M) (by rw [Disk.opened, List.length_mapIdx, hD.len]) d ?_ hf q hq hd h1 h2 hg
  intro i hi hi'
  have hi'' : i < D.ups.length := by rw [hD.len]; exact hi
  obtain ⟨a, n, b⟩ := hD.ups i hi hi''
  have e : (D.opened M)[i] = openDiff D.ups[i].add M.mem (if D.ups[i].small then M.gbase else M.obase i) D.ups[i].out := by
    simp only [Disk.opened, List.getElem_mapIdx]
  rw [e]
  exact ⟨a, n, b M hM⟩

theorem nodup_apply {g : List Triple} {u : Update} (h : g.Nodup) (hu : u.Fresh g) : (u.apply g).Nodup := by
  cases u with
  | add ts => exact List.nodup_append.2 ⟨h, hu.1, fun x hx y hy e => hu.2 y hy (by rw [← e]; exact hx)⟩
  | del ts => exact List.Pairwise.filter _ h

theorem nodup_applyAll {g : List Triple} {us : List Update} (h : g.Nodup) (hu : FreshAll g us) : (applyAll g us).Nodup := by
  induction us generalizing g with
  | nil => exact h
  | cons u us ih => exact ih (nodup_apply h hu.1) hu.2

/-- A sorted list of rows of distinct triples has no repetitions. -/
theorem strict_rows {d : Order} {out : List Row3} {l : List Triple} {P : Triple → Bool} (hs : out.Pairwise Row3.nl) (hn : l.Nodup) (hp : out.Perm ((l.filter P).map d.row)) :
    out.Pairwise Row3.lt := by
  have h1 : out.Nodup := by
    refine hp.nodup_iff.2 ?_
    rw [List.Nodup, List.pairwise_map, List.pairwise_filter]
    refine hn.imp fun {a b} hab _ _ e => hab ?_
    exact d.eq_of_row (congrArg (fun r : Row3 => r.1) e) (congrArg (fun r : Row3 => r.2) e)
  have h2 := hs.and h1
  refine h2.imp fun {a b} hab => ?_
  exact Classical.byContradiction fun hc => hab.2 (Row3.eq_of_not_lt hc hab.1)

/-- The order has the tree of its first position. -/
theorem first_cases (d : Order) : first d.idx = 0 ∨ first d.idx = 1 ∨ first d.idx = 2 := by cases d <;> simp [Order.idx, first]

theorem openDiff_cut_tree {d : Order} (u : Stored) (j : Nat) (b : Bool) (m : Mem) (base : Nat → Nat) :
    (openDiff b m base (u.cut j).out).tree d.idx = if treeWritten j (first d.idx) then (openDiff b m base u.out).tree d.idx else [] := by
  unfold openDiff Stored.cut
  simp only
  by_cases h : treeWritten j (first d.idx) = true
  · rw [if_pos h, if_pos h]
  · rw [if_neg h, if_neg h]; rfl

/-- The batch that the interrupted update is opened as. -/
def crashBatch (add : Bool) (ts : List T3) (j : Nat) (d : Order) : Update :=
  if add && decide (j ≥ 7) then .add (ts.map T3.triple) else .del (if treeWritten j (first d.idx) then ts.map T3.triple else [])

theorem treeWritten_two {j : Nat} {d : Order} (h : treeWritten j (first d.idx) = true) : j ≥ 3 := by
  unfold treeWritten at h
  rcases first_cases d with e | e | e <;> rw [e] at h <;> simp at h <;> omega

theorem treeWritten_late {j : Nat} (d : Order) (h : j ≥ 5) : treeWritten j (first d.idx) = true := by
  unfold treeWritten
  rcases first_cases d with e | e | e <;> rw [e] <;> simp <;> omega

theorem crashed_of {S : Sorts} {rnd : Nat → Nat → Bool × Bool} {D : Disk} {add : Bool} {ts : List T3} {j : Nat} {junk : Nat → List UInt8} {M : Mapping}
    (hj : j ≠ 0) (hM : M.Of (D.crashed S rnd add ts j junk)) : M.Of D := by
  unfold Disk.crashed at hM
  rw [if_neg hj] at hM
  constructor
  · intro d
    have := hM.1 d
    by_cases hs : ts.length < USEGLOBAL
    · simp only [if_pos hs] at this
      by_cases h2 : j ≥ 2
      · obtain ⟨x, hx⟩ := build_prefix (S := S) rnd D.glob ts hs d
        simp only [if_pos h2] at this
        rw [hx, placed_append] at this
        exact this.1
      · simp only [if_neg h2, placed_append] at this
        exact this.1
    · simp only [if_neg hs] at this
      exact this
  · intro i u hu
    refine hM.2 i u ?_
    show (D.ups ++ _)[i]? = some u
    rw [List.getElem?_append_left (List.getElem?_eq_some_iff.1 hu).1, hu]

/-- What the directory holds after an interrupted update. -/
theorem crashed_holds {g : List Triple} {D : Disk} {us : List Update} (h : DiskOk g D us) {S : Sorts} (hS : S.Ok) (rnd : Nat → Nat → Bool × Bool) (add : Bool) (ts : List T3)
    (hids : ∀ t ∈ ts, t.1 < 2 ^ 32 - 1 ∧ t.2.1 < 2 ^ 32 - 1 ∧ t.2.2 < 2 ^ 32 - 1) (hlen : ts.length < 2 ^ 24)
    (htot : (us.map (·.triples.length)).sum + ts.length < 2 ^ 27) (hnd : ts.Nodup) (j : Nat) (hj : j ≠ 0) (junk : Nat → List UInt8) (d : Order) :
    HoldsAt (D.crashed S rnd add ts j junk) d (us ++ [crashBatch add ts j d]) := by
  have hbl := build_length hS rnd D.glob ts hlen
  have hB : BuildOk S rnd D.glob ts := ⟨hS, hids, hlen, fun d => by have := hbl d; have := h.size d; omega⟩
  have hups : (D.crashed S rnd add ts j junk).ups = D.ups ++ [Stored.cut ⟨add, decide (ts.length < USEGLOBAL), build S rnd D.glob ts⟩ j] := by
    unfold Disk.crashed; rw [if_neg hj]
  have hndt : (ts.map T3.triple).Nodup := List.pairwise_map.2 (hnd.imp fun {a b} hab e => hab (triple_inj e))
  refine ⟨by rw [hups, List.length_append, List.length_append, h.len]; rfl, ?_⟩
  intro i hi hi'
  by_cases hiu : i < us.length
  · have hiD : i < D.ups.length := by rw [h.len]; exact hiu
    have e1 : (D.crashed S rnd add ts j junk).ups[i] = D.ups[i] := by
      simp only [hups]; exact List.getElem_append_left hiD
    have e2 : (us ++ [crashBatch add ts j d])[i] = us[i] := List.getElem_append_left hiu
    rw [e1, e2]
    obtain ⟨a, b, c⟩ := (h.holdsAt d).ups i hiu hiD
    exact ⟨a, b, fun M hM => c M (crashed_of hj hM)⟩
  · have hie : i = us.length := by simp at hi; omega
    subst hie
    have e1 : (D.crashed S rnd add ts j junk).ups[us.length] = Stored.cut ⟨add, decide (ts.length < USEGLOBAL), build S rnd D.glob ts⟩ j := by
      simp only [hups]
      rw [List.getElem_append_right (by rw [h.len]; exact Nat.le_refl _)]
      simp [h.len]
    have e2 : (us ++ [crashBatch add ts j d])[us.length] = crashBatch add ts j d := by simp
    rw [e1, e2]
    generalize hu : (⟨add, decide (ts.length < USEGLOBAL), build S rnd D.glob ts⟩ : Stored) = u at *
    have hadd : (u.cut j).add = isAdd (crashBatch add ts j d) := by
      rw [← hu]
      unfold crashBatch Stored.cut
      simp only
      cases hc : (add && decide (j ≥ 7)) <;> rfl
    refine ⟨hadd, ?_, fun M hM => ?_⟩
    · unfold crashBatch
      split
      · exact hndt
      · show (if _ then _ else _ : List Triple).Nodup
        split
        · exact hndt
        · exact .nil
    · by_cases ht : treeWritten j (first d.idx) = true
      · have hj3 := treeWritten_two ht
        have etr : (crashBatch add ts j d).triples = ts.map T3.triple := by
          unfold crashBatch
          split
          · rfl
          · rfl
        rw [etr]
        have hp : ∀ d : Order, Placed M.mem ((if (u.cut j).small then M.gbase else M.obase us.length) d.idx) (Diff3.fileOf (build S rnd D.glob ts) d.idx) := by
          intro d
          by_cases hs : ts.length < USEGLOBAL
          · have : (u.cut j).small = true := by rw [← hu]; simpa [Stored.cut] using hs
            rw [if_pos this]
            have := hM.1 d
            unfold Disk.crashed at this
            rw [if_neg hj] at this
            simp only [if_pos hs, if_pos (show j ≥ 2 by omega)] at this
            exact this
          · have hsm : (u.cut j).small = false := by rw [← hu]; simpa [Stored.cut] using hs
            rw [if_neg (by rw [hsm]; simp)]
            have := hM.2 us.length (u.cut j) (by rw [hups, List.getElem?_append_right (by rw [h.len]; exact Nat.le_refl _)]; simp [h.len]) hsm d
            have ef : Diff3.fileOf (u.cut j).out d.idx = Diff3.fileOf (build S rnd D.glob ts) d.idx := by
              rw [← hu]
              unfold Diff3.fileOf Stored.cut
              simp only
              by_cases hd : d.idx < 3
              · rw [if_pos hd, if_pos hd]; split <;> rfl
              · rw [if_neg hd, if_neg hd]; split <;> rfl
            rw [ef] at this
            exact this
        have hdo := (hB.diffOk (u.cut j).add hp).at d
        have e3 := openDiff_cut_tree (d := d) u j (u.cut j).add M.mem (if (u.cut j).small then M.gbase else M.obase us.length)
        rw [if_pos ht] at e3
        have eo : u.out = build S rnd D.glob ts := by rw [← hu]
        rw [eo] at e3
        refine ⟨?_, ?_, ?_⟩
        · rw [e3]; exact hdo.keys
        · rw [e3]; exact hdo.tables
        · rw [e3]; exact hdo.complete
      · have hj7 : ¬ j ≥ 7 := fun hc => ht (treeWritten_late d (by omega))
        have etr : (crashBatch add ts j d).triples = [] := by
          unfold crashBatch
          rw [if_neg (by simp [hj7]), if_neg ht]; rfl
        have e3 := openDiff_cut_tree (d := d) u j (u.cut j).add M.mem (if (u.cut j).small then M.gbase else M.obase us.length)
        rw [if_neg ht] at e3
        rw [etr]
        refine ⟨by rw [e3]; exact .nil, ?_, by simp⟩
        rw [e3]
        intro e he
        simp at he

end Trident.Upd
