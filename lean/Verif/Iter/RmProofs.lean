import Verif.Iter.Rm
/-! Lemmas about the removal iterator (no property statements here). -/
namespace Trident

/-- Lexicographic order on triples. -/
def lt3 (a b : Int × Int × Int) : Prop :=
  a.1 < b.1 ∨ (a.1 = b.1 ∧ (a.2.1 < b.2.1 ∨ (a.2.1 = b.2.1 ∧ a.2.2 < b.2.2)))

instance (a b) : Decidable (lt3 a b) := by unfold lt3; infer_instance

theorem lt3_irrefl (a) : ¬ lt3 a a := by unfold lt3; omega
theorem lt3_trans {a b c} (h : lt3 a b) (h' : lt3 b c) : lt3 a c := by unfold lt3 at *; omega
theorem lt3_of_lt_of_not {a b c} (h : lt3 a b) (h' : ¬ lt3 c b) : lt3 a c := by unfold lt3 at *; omega
theorem lt3_of_not_of_lt {a b c} (h : ¬ lt3 b a) (h' : lt3 b c) : lt3 a c := by unfold lt3 at *; omega
theorem lt3_tri {a b} (h : ¬ lt3 a b) (h' : ¬ lt3 b a) : a = b := by
  unfold lt3 at *; exact Prod.ext (by omega) (Prod.ext (by omega) (by omega))

namespace Rm
variable {σ τ α : Type} {M : Itr σ α} {R : Itr τ α} {mode : Mode α} {fuel : Nat}
  {mmv : Int → Int → σ → σ} {rmv : Int → Int → τ → τ} {X : Prop} {keep : Int → Int → α → Bool}

theorem cmp_neg {a b} : cmp a b < 0 ↔ lt3 a b := by
  unfold cmp lt3
  simp only
  repeat' split
  all_goals omega

theorem cmp_pos {a b} : cmp a b > 0 ↔ lt3 b a := by
  unfold cmp lt3
  simp only
  repeat' split
  all_goals omega

/-- What remains of `e` when the elements `rs` are deleted. -/
def remain (mode : Mode α) (rs : List α) (e : α) : Option α :=
  match rs.find? (fun r => decide (mode.kr r = mode.km e)) with
  | none => some e
  | some r => mode.sub e r

theorem remain_nil {e : α} : remain mode [] e = some e := by simp [remain]

theorem filterMap_remain_nil {ms : List α} : ms.filterMap (remain mode []) = ms := by
  induction ms with
  | nil => rfl
  | cons e ms ih => rw [List.filterMap_cons, remain_nil]; simp [ih]

theorem find?_skip {pre rs : List α} {p : α → Bool} (h : ∀ r ∈ pre, p r = false) :
    (pre ++ rs).find? p = rs.find? p := by
  rw [List.find?_append, List.find?_eq_none.2 (fun r hr => by simp [h r hr])]; rfl

theorem remain_skip {pre rs : List α} {e : α} (h : ∀ r ∈ pre, mode.kr r ≠ mode.km e) :
    remain mode (pre ++ rs) e = remain mode rs e := by
  unfold remain; rw [find?_skip (fun r hr => by simp [h r hr])]

theorem remain_none {rs : List α} {e : α} (h : ∀ r ∈ rs, mode.kr r ≠ mode.km e) :
    remain mode rs e = some e := by
  rw [← List.append_nil rs, remain_skip h, remain_nil]

theorem filterMap_skip {pre rs ms : List α} (h : ∀ e ∈ ms, ∀ r ∈ pre, mode.kr r ≠ mode.km e) :
    ms.filterMap (remain mode (pre ++ rs)) = ms.filterMap (remain mode rs) := by
  induction ms with
  | nil => rfl
  | cons e ms ih =>
    rw [List.filterMap_cons, List.filterMap_cons, remain_skip (h e (by simp)),
      ih (fun e he => h e (by simp [he]))]

/-- Sorted by what the comparison looks at. -/
def SortedK (k : α → Int × Int × Int) (l : List α) : Prop :=
  l.Pairwise fun a b => ¬ lt3 (k b) (k a)

theorem advance_ok {DR : DriverK R rmv (fun _ _ _ => X) keep} (e : α) {rm r rt} (n : Nat)
    (hn : rt.length < n) (h : DR.At rm r rt) (hs : SortedK mode.kr (r :: rt)) :
    let a := advance R mode e n rm
    (a.2 < 0 ∧ ∀ x ∈ r :: rt, lt3 (mode.kr x) (mode.km e)) ∨
    (¬ a.2 < 0 ∧ ∃ pre r' rt', r :: rt = pre ++ r' :: rt' ∧ DR.At a.1 r' rt' ∧
      (∀ x ∈ pre, lt3 (mode.kr x) (mode.km e)) ∧ a.2 = cmp (mode.kr r') (mode.km e)) := by
  induction n generalizing rm r rt with
  | zero => omega
  | succ n ih =>
    simp only [advance, DR.val h]
    by_cases hc : cmp (mode.kr r) (mode.km e) < 0
    · rw [if_pos hc]
      cases hh : (R.hasNext rm).1 with
      | true =>
        simp only [if_true]
        obtain ⟨r', rt', h1, h2⟩ := DR.more (DR.good h) hh
        subst h1
        rcases ih (by simp at hn; omega) h2 (List.pairwise_cons.1 hs).2 with h3 | ⟨h3, pre, r2, rt2, h4, h5, h6, h7⟩
        · refine .inl ⟨h3.1, ?_⟩
          intro x hx
          rcases List.mem_cons.1 hx with rfl | hx
          · exact cmp_neg.1 hc
          · exact h3.2 x hx
        · refine .inr ⟨h3, r :: pre, r2, rt2, by rw [h4]; rfl, h5, ?_, h7⟩
          intro x hx
          rcases List.mem_cons.1 hx with rfl | hx
          · exact cmp_neg.1 hc
          · exact h6 x hx
      | false =>
        simp only [Bool.false_eq_true, if_false]
        have := DR.done (DR.good h) hh
        subst this
        refine .inl ⟨hc, ?_⟩
        intro x hx; simp at hx; subst hx; exact cmp_neg.1 hc
    · rw [if_neg hc]
      exact .inr ⟨hc, [], r, rt, rfl, h, by simp, rfl⟩

/-- The deletions still relevant are `rs`. -/
def RmOK (DR : DriverK R rmv (fun _ _ _ => X) keep) (mode : Mode α) (fuel : Nat) (rm : τ)
    (valid : Bool) (rs : List α) : Prop :=
  (valid = false ∧ rs = []) ∨
  (valid = true ∧ SortedK mode.kr rs ∧ rs.length < fuel ∧ ∃ r rt, rs = r :: rt ∧ DR.At rm r rt)

/-- Between two `next`: `ms` is left in the main iterator. -/
structure GoodR (DM : DriverK M mmv (fun _ _ _ => X) keep) (DR : DriverK R rmv (fun _ _ _ => X) keep)
    (mode : Mode α) (fuel : Nat) (s : St σ τ α) (ms rs : List α) : Prop where
  itr : DM.Good s.itr ms
  srt : SortedK mode.km ms
  len : ms.length < fuel
  rm : RmOK DR mode fuel s.rm s.rmValid rs

/-- The main iterator has just returned `em`. -/
structure AtR (DM : DriverK M mmv (fun _ _ _ => X) keep) (DR : DriverK R rmv (fun _ _ _ => X) keep)
    (mode : Mode α) (fuel : Nat) (s : St σ τ α) (em : α) (ms rs : List α) : Prop where
  itr : DM.At s.itr em ms
  srt : SortedK mode.km (em :: ms)
  len : ms.length + 1 < fuel
  rm : RmOK DR mode fuel s.rm s.rmValid rs

theorem search_ok (DM : DriverK M mmv (fun _ _ _ => X) keep) (DR : DriverK R rmv (fun _ _ _ => X) keep)
    {s : St σ τ α} {ms rs} (n : Nat) (hn : ms.length < n) (h : GoodR DM DR mode fuel s ms rs) :
    let r := search M R mode fuel n s
    (r.1 = false ∧ ms.filterMap (remain mode rs) = []) ∨
    (r.1 = true ∧ ∃ em ms' rs' e, AtR DM DR mode fuel r.2 em ms' rs' ∧ remain mode rs' em = some e ∧
      r.2.nv = e ∧ ms.filterMap (remain mode rs) = e :: ms'.filterMap (remain mode rs')) := by
  induction n generalizing s ms rs with
  | zero => omega
  | succ n ih =>
    simp only [search]
    cases hh : (M.hasNext s.itr).1 with
    | false =>
      simp only [Bool.false_eq_true, if_false]
      have := DM.done h.itr hh
      subst this
      exact .inl ⟨trivial, rfl⟩
    | true =>
      simp only [if_true]
      obtain ⟨em, ms', h1, h2⟩ := DM.more h.itr hh
      subst h1
      have hlen := h.len
      simp only [List.length_cons] at hlen hn
      have hsm := List.pairwise_cons.1 h.srt
      rcases h.rm with ⟨hv, hrs⟩ | ⟨hv, hsr, hlr, r, rt, hrs, hat⟩
      · rw [hv]
        simp only [Bool.false_eq_true, if_false]
        subst hrs
        refine .inr ⟨trivial, em, ms', [], em, ⟨h2, h.srt, hlen, .inl ⟨rfl, rfl⟩⟩, remain_nil, DM.val h2, ?_⟩
        rw [List.filterMap_cons, remain_nil]
      · rw [hv]
        simp only [if_true, DM.val h2]
        subst hrs
        have ha := advance_ok (mode := mode) em fuel (by simp at hlr; omega) hat hsr
        simp only at ha
        generalize advance R mode em fuel s.rm = a at ha ⊢
        rcases ha with ⟨hneg, hall⟩ | ⟨hneg, pre, r', rt', hsplit, hat', hpre, hcmp⟩
        · rw [if_pos hneg]
          have hne : ∀ e ∈ em :: ms', ∀ x ∈ r :: rt, mode.kr x ≠ mode.km e := by
            intro e he x hx heq
            have h3 := hall x hx
            rw [heq] at h3
            rcases List.mem_cons.1 he with rfl | he
            · exact lt3_irrefl _ h3
            · exact hsm.1 e he h3
          refine .inr ⟨rfl, em, ms', [], em, ⟨h2, h.srt, hlen, .inl ⟨rfl, rfl⟩⟩, remain_nil, rfl, ?_⟩
          rw [← List.append_nil (r :: rt), filterMap_skip hne, List.filterMap_cons, remain_nil]
        · rw [if_neg hneg]
          have hne : ∀ e ∈ em :: ms', ∀ x ∈ pre, mode.kr x ≠ mode.km e := by
            intro e he x hx heq
            have h3 := hpre x hx
            rw [heq] at h3
            rcases List.mem_cons.1 he with rfl | he
            · exact lt3_irrefl _ h3
            · exact hsm.1 e he h3
          rw [hsplit, filterMap_skip hne]
          have hrm' : RmOK DR mode fuel a.1 true (r' :: rt') := by
            refine .inr ⟨rfl, ?_, ?_, r', rt', rfl, hat'⟩
            · rw [hsplit] at hsr; exact (List.pairwise_append.1 hsr).2.1
            · have := congrArg List.length hsplit; simp at this hlr ⊢; omega
          have hsr' : SortedK mode.kr (r' :: rt') := by
            rw [hsplit] at hsr; exact (List.pairwise_append.1 hsr).2.1
          by_cases hpos : a.2 > 0
          · rw [if_pos hpos]
            have hgt : lt3 (mode.km em) (mode.kr r') := by rw [hcmp] at hpos; exact cmp_pos.1 hpos
            have hem : remain mode (r' :: rt') em = some em := by
              apply remain_none
              intro x hx heq
              rcases List.mem_cons.1 hx with rfl | hx
              · rw [heq] at hgt; exact lt3_irrefl _ hgt
              · have := (List.pairwise_cons.1 hsr').1 x hx
                rw [heq] at this; exact this hgt
            refine .inr ⟨rfl, em, ms', r' :: rt', em, ⟨h2, h.srt, hlen, by simpa [hv] using hrm'⟩, hem, rfl, ?_⟩
            rw [List.filterMap_cons, hem]
          · rw [if_neg hpos]
            have heq : mode.kr r' = mode.km em := by
              rw [hcmp] at hneg hpos
              exact lt3_tri (fun h => hneg (cmp_neg.2 h)) (fun h => hpos (cmp_pos.2 h))
            have hem : remain mode (r' :: rt') em = mode.sub em r' := by
              unfold remain; simp [heq]
            rw [DR.val hat']
            cases hsub : mode.sub em r' with
            | some x =>
              refine .inr ⟨rfl, em, ms', r' :: rt', x, ⟨h2, h.srt, hlen, by simpa [hv] using hrm'⟩, by rw [hem, hsub], rfl, ?_⟩
              rw [List.filterMap_cons, hem, hsub]
            | none =>
              have hg : GoodR DM DR mode fuel { s with itr := M.next (M.hasNext s.itr).2, rm := a.1 } ms' (r' :: rt') :=
                ⟨DM.good h2, hsm.2, by show ms'.length < fuel; omega, by simpa [hv] using hrm'⟩
              rw [List.filterMap_cons, hem, hsub]
              have := ih (by omega) hg
              simpa only [hv] using this

/-- Seeking and removing can be exchanged. -/
structure KeepOK (mode : Mode α) (keep : Int → Int → α → Bool) : Prop where
  same : ∀ c1 c2 e r, mode.kr r = mode.km e → keep c1 c2 r = keep c1 c2 e
  sub : ∀ c1 c2 e r x, mode.sub e r = some x → keep c1 c2 x = keep c1 c2 e

theorem remain_keep (hk : KeepOK mode keep) {c1 c2 rs e x} (h : remain mode rs e = some x) :
    keep c1 c2 x = keep c1 c2 e := by
  unfold remain at h
  split at h
  · simp at h; rw [h]
  · exact hk.sub _ _ _ _ _ h

theorem remain_filter (hk : KeepOK mode keep) {c1 c2 rs e} (he : keep c1 c2 e = true) :
    remain mode (rs.filter (keep c1 c2)) e = remain mode rs e := by
  have : (rs.filter (keep c1 c2)).find? (fun r => decide (mode.kr r = mode.km e)) =
      rs.find? (fun r => decide (mode.kr r = mode.km e)) := by
    induction rs with
    | nil => rfl
    | cons r rs ih =>
      by_cases hr : mode.kr r = mode.km e
      · have := hk.same c1 c2 e r hr
        rw [List.filter_cons_of_pos (by rw [this, he])]
        simp [hr]
      · rw [List.find?_cons_of_neg (by simpa using hr), ← ih, List.filter_cons]
        split
        · rw [List.find?_cons_of_neg (by simpa using hr)]
        · rfl
  unfold remain; rw [this]

theorem filter_remain (hk : KeepOK mode keep) (c1 c2 : Int) (rs ms : List α) :
    (ms.filterMap (remain mode rs)).filter (keep c1 c2) =
      (ms.filter (keep c1 c2)).filterMap (remain mode (rs.filter (keep c1 c2))) := by
  induction ms with
  | nil => rfl
  | cons e ms ih =>
    rw [List.filterMap_cons]
    by_cases he : keep c1 c2 e = true
    · rw [List.filter_cons_of_pos he, List.filterMap_cons, remain_filter hk he]
      cases hr : remain mode rs e with
      | none => exact ih
      | some x =>
        simp only
        rw [List.filter_cons_of_pos (by rw [remain_keep hk hr, he]), ih]
    · rw [List.filter_cons_of_neg he]
      cases hr : remain mode rs e with
      | none => exact ih
      | some x =>
        simp only
        rw [List.filter_cons_of_neg (by rw [remain_keep hk hr]; exact he), ih]

/-- The device for removals. -/
def driver (DM : DriverK M mmv (fun _ _ _ => X) keep) (DR : DriverK R rmv (fun _ _ _ => X) keep)
    (hk : X → KeepOK mode keep)
    (hsuf : X → ∀ l, SortedK mode.km l → ∀ c1 c2, ∃ pre, l = pre ++ l.filter (keep c1 c2)) :
    DriverK (itr M R mode fuel) (moveto R mmv rmv) (fun _ _ _ => X) keep where
  Good s out := s.hnc = false ∧ ∃ ms rs, GoodR DM DR mode fuel s ms rs ∧ out = ms.filterMap (remain mode rs)
  At s e rest := s.hnc = false ∧ s.v = e ∧ ∃ em ms rs, AtR DM DR mode fuel s em ms rs ∧
    remain mode rs em = some e ∧ rest = ms.filterMap (remain mode rs)
  more := by
    rintro s out ⟨hc, ms, rs, h, rfl⟩ hn
    have := search_ok DM DR fuel h.len h
    simp only at this
    simp only [itr, hasNext, hc, Bool.false_eq_true, if_false] at hn ⊢
    rcases this with ⟨h1, -⟩ | ⟨-, em, ms', rs', e, h2, h3, h4, h5⟩
    · rw [h1] at hn; simp at hn
    · refine ⟨e, _, h5, rfl, h4, em, ms', rs', ⟨h2.itr, h2.srt, h2.len, h2.rm⟩, h3, rfl⟩
  done := by
    rintro s out ⟨hc, ms, rs, h, rfl⟩ hn
    have := search_ok DM DR fuel h.len h
    simp only at this
    simp only [itr, hasNext, hc, Bool.false_eq_true, if_false] at hn
    rcases this with ⟨-, h1⟩ | ⟨h1, -⟩
    · exact h1
    · rw [h1] at hn; simp at hn
  val h := h.2.1
  good := by
    rintro s e rest ⟨h1, -, em, ms, rs, h2, -, h4⟩
    exact ⟨h1, ms, rs, ⟨DM.good h2.itr, (List.pairwise_cons.1 h2.srt).2, by have := h2.len; omega, h2.rm⟩, h4⟩
  suffix := by
    rintro s e rest ⟨-, -, em, ms, rs, h2, h3, rfl⟩ c1 c2 x
    obtain ⟨pre, h4⟩ := hsuf x _ h2.srt c1 c2
    have e1 : e :: ms.filterMap (remain mode rs) = (em :: ms).filterMap (remain mode rs) := by
      rw [List.filterMap_cons, h3]
    have hpre : ((em :: ms).filter (keep c1 c2)).filterMap (remain mode (rs.filter (keep c1 c2))) =
        ((em :: ms).filter (keep c1 c2)).filterMap (remain mode rs) := by
      have : ∀ l : List α, (∀ e ∈ l, keep c1 c2 e = true) →
          l.filterMap (remain mode (rs.filter (keep c1 c2))) = l.filterMap (remain mode rs) := by
        intro l hl
        induction l with
        | nil => rfl
        | cons a l ih =>
          rw [List.filterMap_cons, List.filterMap_cons, remain_filter (hk x) (hl a (by simp)),
            ih (fun e he => hl e (by simp [he]))]
      exact this _ (fun e he => (List.mem_filter.1 he).2)
    refine ⟨pre.filterMap (remain mode rs), ?_⟩
    rw [e1, filter_remain (hk x), hpre, ← List.filterMap_append, ← h4]
  seek := by
    rintro s e rest ⟨h1, -, em, ms, rs, h2, h3, rfl⟩ c1 c2 x
    refine ⟨h1, (em :: ms).filter (keep c1 c2), rs.filter (keep c1 c2), ⟨DM.seek h2.itr c1 c2 x, List.Pairwise.filter _ h2.srt, ?_, ?_⟩, ?_⟩
    · have := List.length_filter_le (keep c1 c2) (em :: ms)
      have h5 := h2.len
      simp only [List.length_cons] at this
      omega
    · rcases h2.rm with ⟨hv, hrs⟩ | ⟨hv, hsr, hlr, r, rt, hrs, hat⟩
      · subst hrs
        left; simp [moveto, hv]
      · subst hrs
        have hg := DR.seek hat c1 c2 x
        cases hh : (R.hasNext (rmv c1 c2 s.rm)).1 with
        | false =>
          have := DR.done hg hh
          left; simp only [moveto, hh]; exact ⟨rfl, this⟩
        | true =>
          obtain ⟨r', rt', h5, h6⟩ := DR.more hg hh
          right
          simp only [moveto, hh, if_true]
          refine ⟨hv, List.Pairwise.filter _ hsr, ?_, r', rt', h5, h6⟩
          have := List.length_filter_le (keep c1 c2) (r :: rt)
          omega
    · rw [← filter_remain (hk x), List.filterMap_cons, h3]

/-- Opening the removal iterator. -/
theorem good_init {DM : DriverK M mmv (fun _ _ _ => X) keep} {DR : DriverK R rmv (fun _ _ _ => X) keep}
    {hk hsuf} {m r v0} {ms rs : List α} (hm : DM.Good m ms) (hr : DR.Good r rs)
    (sm : SortedK mode.km ms) (sr : SortedK mode.kr rs) (lm : ms.length < fuel) (lr : rs.length < fuel) :
    (driver (mode := mode) (fuel := fuel) DM DR hk hsuf).Good (init R v0 m r) (ms.filterMap (remain mode rs)) := by
  refine ⟨rfl, ms, rs, ⟨hm, sm, lm, ?_⟩, rfl⟩
  cases hh : (R.hasNext r).1 with
  | false =>
    have := DR.done hr hh
    subst this
    left; simp [init, hh]
  | true =>
    obtain ⟨r', rt', h1, h2⟩ := DR.more hr hh
    right
    simp only [init, hh, if_true]
    exact ⟨trivial, sr, lr, r', rt', h1, h2⟩

end Rm
end Trident
