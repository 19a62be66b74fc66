import Verif.Join.ExecProofs
/-! # The hash join: the run -/
namespace Trident.Join

theorem slice_append {l z : List Nat} {size r : Nat} {x : List Nat} (h : slice l size r = some x) : slice (l ++ z) size r = some x := by
  have hl := (slice_length h).2
  unfold slice at h ⊢
  rw [if_pos hl] at h
  rw [if_pos (by simp; omega), ← h, List.drop_append_of_le_length (by omega), List.take_append_of_le_length (by simp; omega)]

theorem holds_snoc {size : Nat} {t : List Nat × List Nat} {L : List (List Nat)} (h : Holds size t L) {x : List Nat} (hx : x.length = size) :
    Holds size (t.1 ++ x, t.2 ++ [t.1.length]) (L ++ [x]) := by
  refine ⟨?_, ?_⟩
  · simp only [List.map_append, List.map_cons, List.map_nil]
    congr 1
    · rw [← h.1]
      apply List.map_congr_left
      intro r hr
      have : slice t.1 size r ∈ L.map some := by rw [← h.1]; exact List.mem_map_of_mem hr
      obtain ⟨y, -, hy⟩ := List.mem_map.1 this
      rw [← hy]
      exact slice_append hy.symm
    · unfold slice
      rw [if_pos (by simp; omega), List.drop_left, List.take_of_length_le (by omega)]
  · intro y hy
    rcases List.mem_append.1 hy with hy | hy
    · exact h.2 y hy
    · rw [List.mem_singleton.1 hy]; exact hx

theorem holds_foldl {size : Nat} {c : List Nat} : ∀ {ms : List (List Nat)} {t : List Nat × List Nat} {L : List (List Nat)}, Holds size t L →
    (∀ x ∈ ms, (x ++ c).length = size) →
    Holds size (ms.foldl (fun t x => (t.1 ++ (x ++ c), t.2 ++ [t.1.length])) t) (L ++ ms.map fun x => x ++ c)
  | [], t, L, h, _ => by simpa using h
  | x :: ms, t, L, h, hx => by
    have := holds_foldl (ms := ms) (holds_snoc h (hx x (by simp))) fun y hy => hx y (by simp [hy])
    simpa using this

theorem copyFirst_spec {n : Nat} : ∀ {rows : List (List Nat)} {t : List Nat × List Nat} {L : List (List Nat)}, Holds n t L → (∀ r ∈ rows, r.length = n) →
    ∃ t', copyFirst n rows t = some t' ∧ Holds n t' (L ++ rows)
  | [], t, L, h, _ => ⟨t, rfl, by simpa using h⟩
  | r :: rows, t, L, h, hr => by
    have hlen := hr r (by simp)
    have hc : (List.range n).mapM (fun p => r[p]?) = some r := by
      rw [mapM_some (g := fun p => r.getD p 0) (fun p hp => ?_)]
      · congr 1
        apply List.ext_getElem
        · simp [hlen]
        · intro i h1 h2
          simp [h2]
      · have := List.mem_range.1 hp
        rw [List.getD_eq_getElem?_getD, List.getElem?_eq_getElem (by omega)]
        rfl
    obtain ⟨t', h1, h2⟩ := copyFirst_spec (rows := rows) (holds_snoc h hlen) fun s hs => hr s (by simp [hs])
    refine ⟨t', ?_, by simpa using h2⟩
    unfold copyFirst
    simp only [hc, Option.bind_eq_bind, Option.bind_some]
    exact h1

/-- The rows of the input with the values of the given columns. -/
theorem cols_spec {r fs : List Nat} {l : List Nat} (h : ∀ v ∈ l, v ∈ fs) (hr : r.length = fs.length) :
    (l.map fun v => fs.idxOf v).mapM (fun p => r[p]?) = some (l.map fun v => value (fs.zip r) v) := by
  rw [List.mapM_map]
  apply mapM_some
  intro v hv
  have := List.idxOf_lt_length_iff.2 (h v hv)
  simp only [Function.comp_apply]
  rw [value_zip hr (h v hv), List.getD_eq_getElem?_getD, List.getElem?_eq_getElem (by omega)]
  rfl

theorem joinInto_spec {m : HMap} {js : List (Nat × Nat)} {cp : List Nat} {size : Nat} {fnd : List Nat → List (List Nat)} {kf cf : List Nat → List Nat}
    (hp : ∀ k, reserved k = false → probe m k = some (fnd k)) (hsz : ∀ k, ∀ x ∈ fnd k, x.length = size) :
    ∀ {rows : List (List Nat)}, (∀ r ∈ rows, (js.mapM fun j => r[j.2]?) = some (kf r) ∧ reserved (kf r) = false ∧ (cp.mapM fun p => r[p]?) = some (cf r) ∧ (cf r).length = cp.length) →
    ∀ {t : List Nat × List Nat} {L : List (List Nat)}, Holds (size + cp.length) t L →
    ∃ t', joinInto m js cp rows t = some t' ∧ Holds (size + cp.length) t' (L ++ rows.flatMap fun r => (fnd (kf r)).map fun x => x ++ cf r)
  | [], _, t, L, h => ⟨t, rfl, by simpa using h⟩
  | r :: rows, hr, t, L, h => by
    obtain ⟨h1, h2, h3, h4⟩ := hr r (by simp)
    obtain ⟨t', e1, e2⟩ := joinInto_spec hp hsz (rows := rows) (fun s hs => hr s (by simp [hs]))
      (holds_foldl (ms := fnd (kf r)) (c := cf r) h fun x hx => by simp [hsz _ x hx, h4])
    refine ⟨t', ?_, by simpa using e2⟩
    unfold joinInto
    simp only [h1, hp _ h2, h3, Option.bind_eq_bind, Option.bind_some]
    exact e1

theorem joinLast_spec {m : HMap} {js : List (Nat × Nat)} {cp ret : List Nat} {fnd : List Nat → List (List Nat)} {kf : List Nat → List Nat}
    {out : List Nat → List Nat → List Nat} (hn : js.length = 1 ∨ js.length = 2) (hp : ∀ k, reserved k = false → probe m k = some (fnd k)) :
    ∀ {rows : List (List Nat)}, (∀ r ∈ rows, (js.mapM fun j => r[j.2]?) = some (kf r) ∧ reserved (kf r) = false ∧
      ∀ x ∈ fnd (kf r), ret.mapM (outCol m.size cp x r) = some (out x r)) →
    joinLast m js cp ret rows = some (rows.flatMap fun r => (fnd (kf r)).map fun x => out x r)
  | [], _ => rfl
  | r :: rows, hr => by
    obtain ⟨h1, h2, h3⟩ := hr r (by simp)
    unfold joinLast
    rw [joinLast_spec hn hp (rows := rows) (fun s hs => hr s (by simp [hs]))]
    simp only [h1, Option.bind_eq_bind, Option.bind_some]
    rw [if_pos hn, hp _ h2]
    simp only [Option.bind_some]
    rw [mapM_some h3]
    simp

/-! ## One step -/

/-- The part of the rows so far that holds before a child is joined. -/
structure Mid (cs : List Child) (cur : List Nat) (L : List (List Nat)) : Prop where
  ok : ∀ c ∈ cs, c.Ok
  perm : L.Perm ((solutions cs).map fun b => cur.map (value b))
  keys : ∀ v, v ∈ cur ↔ v ∈ cs.flatMap Child.fields

theorem Mid.mem {cs : List Child} {cur : List Nat} {L : List (List Nat)} (h : Mid cs cur L) {b : Binding} (hb : b ∈ solutions cs) (v : Nat) : v ∈ b.map Prod.fst ↔ v ∈ cur := by
  rw [combos_keys h.ok (List.mem_filter.1 hb).1, h.keys]

theorem Mid.rows {cs : List Child} {cur : List Nat} {L : List (List Nat)} (h : Mid cs cur L) {x : List Nat} (hx : x ∈ L) :
    x.length = cur.length ∧ ∀ a ∈ x, a ≠ 2 ^ 64 - 1 := by
  obtain ⟨b, hb, rfl⟩ := List.mem_map.1 (h.perm.mem_iff.1 hx)
  refine ⟨by simp, fun a ha => ?_⟩
  obtain ⟨v, hv, rfl⟩ := List.mem_map.1 ha
  exact combos_vals h.ok (List.mem_filter.1 hb).1 _ (value_mem ((h.mem hb v).2 hv))

theorem getD_map_idxOf {cur : List Nat} {g : Nat → Nat} {v : Nat} (h : v ∈ cur) : (cur.map g).getD (cur.idxOf v) 0 = g v := by
  have := List.idxOf_lt_length_iff.2 h
  rw [List.getD_eq_getElem?_getD, List.getElem?_map, List.getElem?_eq_getElem this]
  simp

theorem reserved_false {k : List Nat} (hne : k ≠ []) (h : ∀ a ∈ k, a ≠ 2 ^ 64 - 1) : reserved k = false := by
  cases k with
  | nil => exact absurd rfl hne
  | cons a k =>
    unfold reserved
    have := h a (by simp)
    simp only [List.all_cons, Bool.and_eq_false_iff]
    left
    simpa using this

/-- What joining the rows with one more child gives, in terms of solutions. -/
theorem step_perm {cs : List Child} {c : Child} {cur : List Nat} {L L' : List (List Nat)} (h : Mid cs cur L) (hc : c.Ok) (hL : L'.Perm L) (o : Binding → List Nat)
    (out : List Nat → List Nat → List Nat)
    (ho : ∀ b ∈ solutions cs, ∀ r ∈ c.rows, out (cur.map (value b)) r = o (b ++ c.fields.zip r)) :
    (c.rows.flatMap fun r => (L'.filter fun x => keyOf ((common cur c.fields).map fun v => cur.idxOf v) x == (common cur c.fields).map (value (c.fields.zip r))).map fun x => out x r).Perm
      ((solutions (cs ++ [c])).map o) := by
  rw [solutions_snoc hc, List.map_flatMap]
  -- the rows are those of the solutions
  have hp := hL.trans h.perm
  refine (perm_flatMap_congr (G := fun r => (((solutions cs).map fun b => cur.map (value b)).filter fun x =>
      keyOf ((common cur c.fields).map fun v => cur.idxOf v) x == (common cur c.fields).map (value (c.fields.zip r))).map fun x => out x r)
    fun r _ => (hp.filter _).map _).trans ?_
  have h1 : (c.rows.flatMap fun r => (((solutions cs).map fun b => cur.map (value b)).filter fun x =>
      keyOf ((common cur c.fields).map fun v => cur.idxOf v) x == (common cur c.fields).map (value (c.fields.zip r))).map fun x => out x r) =
      c.rows.flatMap fun r => ((solutions cs).filter fun b => keyOf ((common cur c.fields).map fun v => cur.idxOf v) (cur.map (value b)) ==
        (common cur c.fields).map (value (c.fields.zip r))).map fun b => out (cur.map (value b)) r := by
    congr 1
    funext r
    rw [List.filter_map, List.map_map]
    rfl
  rw [h1]
  refine (swap_perm (fun r b => keyOf ((common cur c.fields).map fun v => cur.idxOf v) (cur.map (value b)) == (common cur c.fields).map (value (c.fields.zip r)))
    (fun r b => out (cur.map (value b)) r) c.rows (solutions cs)).trans ?_
  refine perm_flatMap_congr fun b hb => ?_
  rw [List.map_map]
  have h2 : (c.rows.filter fun r => keyOf ((common cur c.fields).map fun v => cur.idxOf v) (cur.map (value b)) == (common cur c.fields).map (value (c.fields.zip r))) =
      c.rows.filter fun r => decide (∀ v ∈ c.fields, v ∈ b.map Prod.fst → value b v = value (c.fields.zip r) v) := by
    apply List.filter_congr
    intro r hr
    have hk : keyOf ((common cur c.fields).map fun v => cur.idxOf v) (cur.map (value b)) = (common cur c.fields).map (value b) := by
      unfold keyOf
      rw [List.map_map]
      apply List.map_congr_left
      intro v hv
      exact getD_map_idxOf (of_decide_eq_true (List.mem_filter.1 hv).2)
    rw [hk]
    by_cases hh : ∀ v ∈ c.fields, v ∈ b.map Prod.fst → value b v = value (c.fields.zip r) v
    · rw [decide_eq_true hh, beq_iff_eq]
      apply List.map_congr_left
      intro v hv
      obtain ⟨g1, g2⟩ := List.mem_filter.1 hv
      exact hh v g1 ((h.mem hb v).2 (of_decide_eq_true g2))
    · rw [decide_eq_false hh, beq_eq_false_iff_ne]
      intro he
      apply hh
      intro v g1 g2
      have hv : v ∈ common cur c.fields := List.mem_filter.2 ⟨g1, decide_eq_true ((h.mem hb v).1 g2)⟩
      exact (List.map_inj_left.1 he) v hv
  rw [h2]
  refine List.Perm.of_eq ?_
  apply List.map_congr_left
  intro r hr
  exact ho b hb r (List.mem_filter.1 hr).1

/-- The columns at the end. -/
def allCols : List Nat → List Child → List Nat
  | cur, [] => cur
  | cur, c :: cs => allCols (cur ++ fresh cur c.fields) cs

theorem planRest_cols {proj : List Nat} : ∀ {cs : List Child} {cur : List Nat}, (∀ c ∈ cs, c.Ok) → (planRest proj cs cur).2 = allCols cur cs
  | [], _, _ => rfl
  | c :: cs, cur, h => by
    simp only [planRest, allCols]
    rw [scan_spec _ (h c (by simp)).nodup]
    exact planRest_cols fun d hd => h d (by simp [hd])

theorem idxOf_prefix {a b : List Nat} (h : a <+: b) {v : Nat} (hv : v ∈ a) : b.idxOf v = a.idxOf v := by
  obtain ⟨z, rfl⟩ := h
  exact idxOf_append_left hv

/-- The output columns. -/
theorem out_spec {proj cur : List Nat} {c : Child} (hc : c.Ok) (hp : ProjFits proj cur [c]) {b : Binding} (hb : ∀ v, v ∈ b.map Prod.fst ↔ v ∈ cur) {r : List Nat}
    (hr : r ∈ c.rows) (hcur : cur.Nodup) :
    (retCols proj (cur ++ fresh cur c.fields)).mapM (outCol cur.length
      ((c.fields.filter fun v => decide (v ∉ cur) && (decide (([] : List Child) ≠ []) || decide (proj = []) || decide (v ∈ proj))).map fun v => c.fields.idxOf v)
      (cur.map (value b)) r) = some ((if proj = [] then cur ++ fresh cur c.fields else proj).map (value (b ++ c.fields.zip r))) := by
  have hlen := hc.rows r hr
  -- one column
  have hcol : ∀ v ∈ cur ++ fresh cur c.fields, (proj = [] ∨ v ∈ proj) → outCol cur.length
      ((c.fields.filter fun v => decide (v ∉ cur) && (decide (([] : List Child) ≠ []) || decide (proj = []) || decide (v ∈ proj))).map fun v => c.fields.idxOf v)
      (cur.map (value b)) r ((cur ++ fresh cur c.fields).idxOf v) = some (value (b ++ c.fields.zip r) v) := by
    intro v hv hvp
    unfold outCol
    by_cases hvc : v ∈ cur
    · have hlt := List.idxOf_lt_length_iff.2 hvc
      rw [idxOf_append_left hvc, if_pos hlt, value_append_left ((hb v).2 hvc), List.getElem?_map, List.getElem?_eq_getElem hlt]
      simp
    · have hvf : v ∈ fresh cur c.fields := by
        rcases List.mem_append.1 hv with hv | hv
        · exact absurd hv hvc
        · exact hv
      have hvm : v ∈ c.fields := (List.mem_filter.1 hvf).1
      rw [idxOf_append_right hvc, if_neg (by omega), show cur.length + (fresh cur c.fields).idxOf v - cur.length = (fresh cur c.fields).idxOf v by omega]
      rw [value_append_right (fun hm => hvc ((hb v).1 hm)), value_zip hlen hvm]
      -- the position among the copied columns
      have hpos : ∃ F, (c.fields.filter fun v => decide (v ∉ cur) && (decide (([] : List Child) ≠ []) || decide (proj = []) || decide (v ∈ proj))) = F ∧ v ∈ F ∧ (fresh cur c.fields).idxOf v = F.idxOf v := by
        by_cases hpe : proj = []
        · refine ⟨_, rfl, ?_, ?_⟩
          · rw [List.mem_filter]; simp [hvm, hvc, hpe]
          · congr 1
            unfold fresh
            apply List.filter_congr
            intro w _
            simp [hpe]
        · rcases hp with hp | ⟨-, hp⟩
          · exact absurd hp hpe
          · have he : (c.fields.filter fun v => decide (v ∉ cur) && (decide (([] : List Child) ≠ []) || decide (proj = []) || decide (v ∈ proj))) =
                (fresh cur c.fields).filter fun v => decide (v ∈ proj) := by
              unfold fresh
              rw [List.filter_filter]
              apply List.filter_congr
              intro w _
              simp [hpe, Bool.and_comm]
            have hvF : v ∈ (fresh cur c.fields).filter fun v => decide (v ∈ proj) := by
              rw [List.mem_filter]
              rcases hvp with hvp | hvp
              · exact absurd hvp hpe
              · exact ⟨hvf, decide_eq_true hvp⟩
            exact ⟨_, he, hvF, idxOf_prefix hp hvF⟩
      obtain ⟨F, hF, hvF, hidx⟩ := hpos
      rw [hF, hidx]
      have hlt := List.idxOf_lt_length_iff.2 hvF
      have hlt2 := List.idxOf_lt_length_iff.2 hvm
      rw [List.getElem?_map, List.getElem?_eq_getElem hlt]
      simp only [List.getElem_idxOf, Option.map_some, Option.bind_some]
      rw [List.getD_eq_getElem?_getD, List.getElem?_eq_getElem (by omega)]
      rfl
  unfold retCols
  by_cases hpe : proj = []
  · rw [if_neg (by simp [hpe]), if_pos hpe]
    have hnd : (cur ++ fresh cur c.fields).Nodup := by
      rw [List.nodup_append]
      refine ⟨hcur, hc.nodup.filter _, ?_⟩
      intro x hx y hy he
      have := (List.mem_filter.1 hy).2
      rw [← he] at this
      exact (of_decide_eq_true this) hx
    have hrange : List.range (cur ++ fresh cur c.fields).length = (cur ++ fresh cur c.fields).map fun v => (cur ++ fresh cur c.fields).idxOf v := by
      apply List.ext_getElem
      · simp
      · intro i h1 h2
        simp only [List.getElem_range, List.getElem_map]
        rw [hnd.idxOf_getElem]
    rw [hrange, List.mapM_map]
    exact mapM_some fun v hv => hcol v hv (.inl hpe)
  · rw [if_pos hpe, if_neg hpe]
    rcases hp with hp | ⟨hp, -⟩
    · exact absurd hp hpe
    · rw [List.filter_eq_self.2 (fun v hv => decide_eq_true (hp v hv)), List.mapM_map]
      exact mapM_some fun v hv => hcol v (hp v hv) (.inr hv)

end Trident.Join
