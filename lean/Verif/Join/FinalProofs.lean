import Verif.Join.RunProofs
/-! # The hash join: the result -/
namespace Trident.Join

theorem solutions_nil_append {cs ds : List Child} (h : solutions cs = []) : solutions (cs ++ ds) = [] := by
  unfold solutions at h ⊢
  rw [combos_append, List.filter_eq_nil_iff]
  intro b hb
  obtain ⟨b1, hb1, hb⟩ := List.mem_flatMap.1 hb
  obtain ⟨b2, hb2, rfl⟩ := List.mem_map.1 hb
  rw [List.filter_eq_nil_iff] at h
  intro hc
  exact h b1 hb1 (consistent_append.1 hc).1

theorem fresh_nodup {cur fs : List Nat} (h : cur.Nodup) (hf : fs.Nodup) : (cur ++ fresh cur fs).Nodup := by
  rw [List.nodup_append]
  refine ⟨h, hf.filter _, ?_⟩
  intro x hx y hy he
  have := (List.mem_filter.1 hy).2
  rw [← he] at this
  exact (of_decide_eq_true this) hx

theorem mid_keys {cs : List Child} {c : Child} {cur : List Nat} (h : ∀ v, v ∈ cur ↔ v ∈ cs.flatMap Child.fields) (v : Nat) :
    v ∈ cur ++ fresh cur c.fields ↔ v ∈ (cs ++ [c]).flatMap Child.fields := by
  simp only [List.mem_append, fresh, List.mem_filter, decide_eq_true_eq, List.flatMap_append, List.flatMap_cons, List.flatMap_nil, List.append_nil, ← h]
  by_cases hv : v ∈ cur <;> simp [hv]

theorem execRest_spec {srt : (Nat → List Nat) → List Nat → List Nat} (hs : SortsKeys srt) {proj : List Nat} : ∀ {rest : List Child} {cs : List Child} {cur : List Nat}
    {t : List Nat × List Nat} {L : List (List Nat)}, rest ≠ [] → (∀ c ∈ rest, c.Ok) → cur.Nodup → Mid cs cur L → Holds cur.length t L → Joinable cur rest →
    ProjFits proj cur rest →
    ∃ out, execRest srt (retCols proj (planRest proj rest cur).2) rest (planRest proj rest cur).1 t cur.length = some out ∧
      out.Perm ((solutions (cs ++ rest)).map fun b => (if proj = [] then allCols cur rest else proj).map (value b))
  | [], _, _, _, _, h, _, _, _, _, _, _ => absurd rfl h
  | c :: rest, cs, cur, t, L, _, hok, hnd, hmid, hL, hj, hp => by
    have hc := hok c (by simp)
    obtain ⟨hj1, hj2⟩ := hj
    simp only [planRest, scan_spec _ hc.nodup]
    rw [planRest_cols (fun d hd => hok d (by simp [hd]))]
    unfold execRest
    by_cases ht : t.2 = []
    · rw [if_pos ht]
      refine ⟨[], rfl, ?_⟩
      have hl : L = [] := by
        have := hL.1
        rw [ht] at this
        cases L with
        | nil => rfl
        | cons _ _ => simp at this
      have : solutions cs = [] := by
        have := hmid.perm
        rw [hl] at this
        have := this.nil_eq
        simpa using this.symm
      rw [solutions_nil_append this]
      simp
    · rw [if_neg ht]
      have hl : L ≠ [] := by
        intro hl
        have := hL.1
        rw [hl] at this
        simp only [List.map_nil, List.map_eq_nil_iff] at this
        exact ht this
      have hfst : ((c.fields.filter fun v => decide (v ∈ cur)).map (fun v => (cur.idxOf v, c.fields.idxOf v))).map Prod.fst =
          (common cur c.fields).map fun v => cur.idxOf v := by
        rw [List.map_map]; rfl
      have hlt : ∀ f ∈ (common cur c.fields).map fun v => cur.idxOf v, f < cur.length := by
        intro f hf
        obtain ⟨v, hv, rfl⟩ := List.mem_map.1 hf
        exact List.idxOf_lt_length_iff.2 (of_decide_eq_true (List.mem_filter.1 hv).2)
      have hcne : common cur c.fields ≠ [] := by
        intro h
        rw [h] at hj1
        simp at hj1
      obtain ⟨m, L', hm1, hm2, hm3, hm4⟩ := fill_spec hs (fs := (common cur c.fields).map fun v => cur.idxOf v) (by simpa using hj1) hlt hL hl (by
        intro x hx
        refine reserved_false (by simpa [keyOf] using hcne) ?_
        intro a ha
        unfold keyOf at ha
        obtain ⟨f, hf, rfl⟩ := List.mem_map.1 ha
        have h1 := hlt f hf
        have h2 := (hmid.rows hx)
        rw [List.getD_eq_getElem?_getD, List.getElem?_eq_getElem (by omega)]
        exact h2.2 _ (List.getElem_mem _))
      rw [hfst, hm1]
      simp only [Option.bind_eq_bind, Option.bind_some]
      have hkey : ∀ r ∈ c.rows, (((c.fields.filter fun v => decide (v ∈ cur)).map (fun v => (cur.idxOf v, c.fields.idxOf v))).mapM fun j => r[j.2]?) =
          some ((common cur c.fields).map (value (c.fields.zip r))) ∧ reserved ((common cur c.fields).map (value (c.fields.zip r))) = false := by
        intro r hr
        refine ⟨?_, ?_⟩
        · rw [← cols_spec (l := common cur c.fields) (fs := c.fields) (fun v hv => (List.mem_filter.1 hv).1) (hc.rows r hr), List.mapM_map, List.mapM_map]
          rfl
        · refine reserved_false (by simpa using hcne) ?_
          intro a ha
          obtain ⟨v, hv, rfl⟩ := List.mem_map.1 ha
          have hvm := (List.mem_filter.1 hv).1
          have h1 := List.idxOf_lt_length_iff.2 hvm
          have h2 := hc.rows r hr
          rw [value_zip h2 hvm, List.getD_eq_getElem?_getD, List.getElem?_eq_getElem (by omega)]
          exact hc.vals r hr _ (List.getElem_mem _)
      by_cases hr : rest = []
      · subst hr
        rw [if_pos rfl]
        refine ⟨_, joinLast_spec (kf := fun r => (common cur c.fields).map (value (c.fields.zip r)))
          (out := fun x r => (if proj = [] then allCols cur [c] else proj).map fun v => if v ∈ cur then x.getD (cur.idxOf v) 0 else value (c.fields.zip r) v)
          (by simpa [common] using hj1) hm4 (fun r hr => ⟨(hkey r hr).1, (hkey r hr).2, ?_⟩), ?_⟩
        · intro x hx
          have hx := hm3.mem_iff.1 (List.mem_filter.1 hx).1
          obtain ⟨b, hb, rfl⟩ := List.mem_map.1 (hmid.perm.mem_iff.1 hx)
          rw [hm2]
          have h := out_spec hc hp (hmid.mem hb) hr hnd
          rw [show allCols (cur ++ c.fields.filter fun v => decide (v ∉ cur)) [] = cur ++ fresh cur c.fields from rfl]
          rw [h]
          congr 1
          apply List.map_congr_left
          intro v hv
          by_cases hvc : v ∈ cur
          · rw [if_pos hvc, value_append_left ((hmid.mem hb v).2 hvc), getD_map_idxOf hvc]
          · rw [if_neg hvc, value_append_right (fun h => hvc ((hmid.mem hb v).1 h))]
        · refine step_perm hmid hc hm3 _ _ ?_
          intro b hb r hr
          apply List.map_congr_left
          intro v hv
          by_cases hvc : v ∈ cur
          · rw [if_pos hvc, value_append_left ((hmid.mem hb v).2 hvc), getD_map_idxOf hvc]
          · rw [if_neg hvc, value_append_right (fun h => hvc ((hmid.mem hb v).1 h))]
      · rw [if_neg hr]
        have hkeep : (c.fields.filter fun v => decide (v ∉ cur) && (decide (rest ≠ []) || decide (proj = []) || decide (v ∈ proj))) = fresh cur c.fields := by
          unfold fresh
          apply List.filter_congr
          intro v _
          simp [hr]
        rw [hkeep]
        obtain ⟨t', e1, e2⟩ := joinInto_spec (size := cur.length) (cp := (fresh cur c.fields).map fun v => c.fields.idxOf v)
          (kf := fun r => (common cur c.fields).map (value (c.fields.zip r))) (cf := fun r => (fresh cur c.fields).map (value (c.fields.zip r))) hm4
          (fun k x hx => (hmid.rows (hm3.mem_iff.1 (List.mem_filter.1 hx).1)).1) (rows := c.rows)
          (fun r hr => ⟨(hkey r hr).1, (hkey r hr).2, cols_spec (fun v hv => (List.mem_filter.1 hv).1) (hc.rows r hr), by simp⟩)
          (t := ([], [])) (L := []) ⟨rfl, by simp⟩
        rw [e1]
        simp only [Option.bind_some]
        have hlen : cur.length + ((fresh cur c.fields).map fun v => c.fields.idxOf v).length = (cur ++ fresh cur c.fields).length := by simp
        rw [hlen] at e2 ⊢
        have hmid' : Mid (cs ++ [c]) (cur ++ fresh cur c.fields) ([] ++ c.rows.flatMap fun r =>
            (L'.filter fun x => keyOf ((common cur c.fields).map fun v => cur.idxOf v) x == (common cur c.fields).map (value (c.fields.zip r))).map
              fun x => x ++ (fresh cur c.fields).map (value (c.fields.zip r))) := by
          refine ⟨?_, ?_, mid_keys hmid.keys⟩
          · intro d hd
            rcases List.mem_append.1 hd with hd | hd
            · exact hmid.ok d hd
            · rw [List.mem_singleton.1 hd]; exact hc
          · rw [List.nil_append]
            refine step_perm hmid hc hm3 _ (fun x r => x ++ (fresh cur c.fields).map (value (c.fields.zip r))) ?_
            intro b hb r hr
            rw [List.map_append]
            congr 1
            · apply List.map_congr_left
              intro v hv
              rw [value_append_left ((hmid.mem hb v).2 hv)]
            · apply List.map_congr_left
              intro v hv
              rw [value_append_right (fun h => (of_decide_eq_true (List.mem_filter.1 hv).2) ((hmid.mem hb v).1 h))]
        have hp' : ProjFits proj (cur ++ fresh cur c.fields) rest := by
          cases rest with
          | nil => exact absurd rfl hr
          | cons d rest => exact hp
        obtain ⟨out, o1, o2⟩ := execRest_spec hs (proj := proj) hr (fun d hd => hok d (by simp [hd])) (fresh_nodup hnd hc.nodup) hmid' e2 hj2 hp'
        refine ⟨out, ?_, ?_⟩
        · rw [← o1, planRest_cols (fun d hd => hok d (by simp [hd]))]
          rfl
        · simpa [allCols] using o2

theorem allCols_varsOf : ∀ {cs : List Child} {cur : List Nat}, allCols cur cs = cs.foldl (fun vs c => vs ++ c.fields.filter fun v => decide (v ∉ vs)) cur
  | [], _ => rfl
  | c :: cs, cur => by
    simp only [allCols, List.foldl_cons]
    exact allCols_varsOf

theorem solutions_single {c : Child} (hc : c.Ok) : solutions [c] = c.rows.map fun r => c.fields.zip r := by
  unfold solutions
  rw [combos_single, List.filter_eq_self]
  intro b hb
  obtain ⟨r, hr, rfl⟩ := List.mem_map.1 hb
  exact consistent_zip hc.nodup (hc.rows r hr)

theorem map_value_zip {c : Child} (hc : c.Ok) {r : List Nat} (hr : r ∈ c.rows) : c.fields.map (value (c.fields.zip r)) = r := by
  have hl := hc.rows r hr
  apply List.ext_getElem
  · simp [hl]
  · intro i h1 h2
    simp only [List.getElem_map]
    have hi : i < c.fields.length := by simpa using h1
    rw [value_zip hl (List.getElem_mem _), hc.nodup.idxOf_getElem, List.getD_eq_getElem?_getD, List.getElem?_eq_getElem h2]
    rfl

theorem hashJoin_spec {srt : (Nat → List Nat) → List Nat → List Nat} (hs : SortsKeys srt) {proj : List Nat} {c : Child} {cs : List Child} (hne : cs ≠ [])
    (hok : ∀ d ∈ c :: cs, d.Ok) (hj : Joinable c.fields cs) (hp : ProjFits proj c.fields cs) :
    ∃ out, hashJoin srt (c :: cs) proj = some out ∧
      out.Perm ((solutions (c :: cs)).map fun b => (if proj = [] then varsOf (c :: cs) else proj).map (value b)) := by
  have hc := hok c (by simp)
  obtain ⟨t, h1, h2⟩ := copyFirst_spec (n := c.fields.length) (rows := c.rows) (t := ([], [])) (L := []) ⟨rfl, by simp⟩ hc.rows
  have hmid : Mid [c] c.fields ([] ++ c.rows) := by
    refine ⟨by simpa using hc, ?_, by simp⟩
    rw [solutions_single hc, List.nil_append, List.map_map]
    refine List.Perm.of_eq ?_
    conv => lhs; rw [← List.map_id c.rows]
    apply List.map_congr_left
    intro r hr
    exact (map_value_zip hc hr).symm
  obtain ⟨out, o1, o2⟩ := execRest_spec hs (proj := proj) hne (fun d hd => hok d (by simp [hd])) hc.nodup hmid h2 hj hp
  refine ⟨out, ?_, ?_⟩
  · unfold hashJoin
    simp only [h1, Option.bind_some]
    exact o1
  · have : allCols c.fields cs = varsOf (c :: cs) := by
      rw [allCols_varsOf]
      unfold varsOf
      rw [List.foldl_cons]
      congr 1
      rw [List.nil_append, List.filter_eq_self.2]
      simp
    rw [← this]
    exact o2

end Trident.Join
