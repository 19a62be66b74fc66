import Verif.Iter.Term
import Verif.Iter.ObjectProofs
import Verif.Iter.DistinctMerge
import Verif.Spec
/-! Lemmas about term lists (no property statements here). -/
namespace Trident

/-! ## Merge -/
namespace CTerm
variable {σ : Type} {C : Itr σ Pair} {sort : List σ → List σ}

/-- Each child is on an element; `ms` collects these and all later ones. -/
inductive Rem (C : Itr σ Pair) : List σ → List Pair → Prop
  | nil : Rem C [] []
  | cons {c r cs ms} : Yields C c r → ((C.val c :: r).map (·.1)).Pairwise (· < ·) → Rem C cs ms →
      Rem C (c :: cs) (C.val c :: r ++ ms)

theorem Rem.perm {cs cs' ms} (h : Rem C cs ms) (hp : cs.Perm cs') : ∃ ms', Rem C cs' ms' ∧ ms.Perm ms' := by
  induction hp generalizing ms with
  | nil => exact ⟨ms, h, .refl _⟩
  | cons x _ ih =>
    cases h with
    | cons h1 h2 h3 =>
      obtain ⟨ms', h4, h5⟩ := ih h3
      exact ⟨_, .cons h1 h2 h4, h5.append_left _⟩
  | swap x y l =>
    cases h with
    | cons h1 h2 h3 => cases h3 with
      | cons h4 h5 h6 =>
        refine ⟨_, .cons h4 h5 (.cons h1 h2 h6), ?_⟩
        rw [← List.append_assoc, ← List.append_assoc]
        exact List.Perm.append_right _ List.perm_append_comm
  | trans _ _ ih1 ih2 =>
    obtain ⟨m1, h1, h2⟩ := ih1 h
    obtain ⟨m2, h3, h4⟩ := ih2 h1
    exact ⟨m2, h3, h2.trans h4⟩

theorem Rem.min {cs ms} (h : Rem C cs ms) {k : Int} (hk : ∀ c ∈ cs, k ≤ (C.val c).1) : ∀ p ∈ ms, k ≤ p.1 := by
  induction h with
  | nil => simp
  | @cons c r cs ms _ h2 _ ih =>
    intro p hp
    rw [List.mem_append] at hp
    rcases hp with hp | hp
    · have h3 := hk c (by simp)
      rcases List.mem_cons.1 hp with rfl | hp
      · exact h3
      · rw [List.map_cons, List.pairwise_cons] at h2
        have := h2.1 p.1 (List.mem_map.2 ⟨p, hp, rfl⟩)
        omega
    · exact ih (fun c hc => hk c (by simp [hc])) p hp

theorem Rem.count {cs ms} (h : Rem C cs ms) {k : Int} (hk : ∀ c ∈ cs, k ≤ (C.val c).1) :
    ((cs.filter fun c => (C.val c).1 = k).map fun c => (C.val c).2).sum =
      ((ms.filter fun p => p.1 = k).map (·.2)).sum := by
  induction h with
  | nil => rfl
  | @cons c r cs ms _ h2 _ ih =>
    have hr : (r.filter fun p => decide (p.1 = k)) = [] := by
      rw [List.filter_eq_nil_iff]
      intro p hp
      rw [List.map_cons, List.pairwise_cons] at h2
      have := h2.1 p.1 (List.mem_map.2 ⟨p, hp, rfl⟩)
      have := hk c (by simp)
      simp; omega
    have ih := ih (fun c hc => hk c (by simp [hc]))
    rw [List.filter_append, List.filter_cons, List.filter_cons, hr]
    by_cases hc : (C.val c).1 = k <;> simp [hc, ih]

theorem Rem.advance {cs ms} (h : Rem C cs ms) (k : Int) (hk : ∀ c ∈ cs, k ≤ (C.val c).1) :
    Rem C (CTerm.advance C k cs) (ms.filter fun p => decide (p.1 ≠ k)) := by
  induction h with
  | nil => exact .nil
  | @cons c r cs ms h1 h2 _ ih =>
    have ih := ih (fun c hc => hk c (by simp [hc]))
    have hh := List.pairwise_cons.1 (by simpa using h2 : ((C.val c).1 :: r.map (·.1)).Pairwise (· < ·))
    have hr : (r.filter fun p => decide (p.1 ≠ k)) = r := by
      rw [List.filter_eq_self]
      intro p hp
      have := hh.1 p.1 (List.mem_map.2 ⟨p, hp, rfl⟩)
      have := hk c (by simp)
      simp; omega
    rw [List.filter_append, List.filter_cons, hr]
    simp only [CTerm.advance]
    by_cases hc : (C.val c).1 = k
    · simp only [if_pos hc, hc, ne_eq, not_true_eq_false, decide_false, Bool.false_eq_true, if_false]
      cases r with
      | nil =>
        rw [yields_nil] at h1
        simp only [h1, Bool.false_eq_true, if_false, List.nil_append]
        exact ih
      | cons e r =>
        rw [yields_cons] at h1
        obtain ⟨q1, q2, q3⟩ := h1
        simp only [q1, if_true]
        subst q2
        exact .cons q3 hh.2 ih
    · simp only [if_neg hc, ne_eq, hc, not_false_eq_true, decide_true, if_true]
      exact .cons h1 h2 ih

/-- `hasNext` was called, or nothing was read yet. -/
structure Fresh (C : Itr σ Pair) (s : St σ) (out : List Pair) : Prop where
  hnc : s.hnc = true
  nc : s.nc = !s.active.isEmpty
  ord : s.active.Pairwise fun a b => (C.val a).1 ≤ (C.val b).1
  rem : ∃ ms, Rem C s.active ms ∧ IsSum ms out

/-- Right after `next`. -/
structure At (C : Itr σ Pair) (s : St σ) (e : Pair) (rest : List Pair) : Prop where
  hnc : s.hnc = false
  ord : s.active.Pairwise fun a b => (C.val a).1 ≤ (C.val b).1
  hd : ∃ c r, s.active = c :: r ∧ (C.val c).1 = e.1
  key : s.key = e.1
  rem : ∃ ms, Rem C s.active ms ∧ IsSum ms (e :: rest)

theorem Rem.fst_mem {c cs ms} (h : Rem C (c :: cs) ms) : (C.val c).1 ∈ ms.map (·.1) := by
  cases h with
  | cons _ _ _ => simp

theorem ord_le {c r} (h : (c :: r).Pairwise fun a b => (C.val a).1 ≤ (C.val b).1) :
    ∀ x ∈ c :: r, (C.val c).1 ≤ (C.val x).1 := by
  intro x hx
  rcases List.mem_cons.1 hx with rfl | hx
  · exact Int.le_refl _
  · exact (List.pairwise_cons.1 h).1 x hx

theorem Fresh.next {s out} (h : Fresh C s out) (hn : s.nc = true) :
    ∃ e rest, out = e :: rest ∧ At C (CTerm.next C s) e rest ∧
      ((CTerm.next C s).key, getCount C (CTerm.next C s)) = e := by
  obtain ⟨ms, h1, h2⟩ := h.rem
  have hnc := h.nc
  have hord := h.ord
  cases hact : s.active with
  | nil => simp [hn, hact] at hnc
  | cons c r =>
    rw [hact] at h1 hord
    have hmin := ord_le hord
    obtain ⟨rest, rfl⟩ := h2.cons_of_min (v := (C.val c).1) h1.fst_mem (h1.min hmin)
    refine ⟨_, rest, rfl, ⟨?_, ?_, ?_, ?_, ?_⟩, ?_⟩
    · simp [CTerm.next, hact]
    · simpa [CTerm.next, hact] using hord
    · exact ⟨c, r, by simp [CTerm.next, hact], rfl⟩
    · simp [CTerm.next, hact]
    · exact ⟨ms, by simpa [CTerm.next, hact] using h1, h2⟩
    · simp only [CTerm.next, hact, getCount]
      rw [h1.count hmin]

theorem At.hasNext (hsort : Composite.SortSpecD C sort) {s e rest} (h : At C s e rest) :
    Fresh C (hasNext C sort s).2 rest ∧ (CTerm.hasNext C sort s).1 = (CTerm.hasNext C sort s).2.nc := by
  obtain ⟨c, r, hact, hc⟩ := h.hd
  obtain ⟨ms, h1, h2⟩ := h.rem
  have hord := h.ord
  rw [hact] at h1 hord
  have hmin := ord_le hord
  have h3 := h1.advance (C.val c).1 hmin
  have h4 := h2.tail
  rw [← hc] at h4
  have e1 : ∃ act, act = (if (CTerm.advance C (C.val c).1 (c :: r)).length > 1 then
        sort (CTerm.advance C (C.val c).1 (c :: r)) else CTerm.advance C (C.val c).1 (c :: r)) ∧
      CTerm.hasNext C sort s = (!act.isEmpty, ⟨act, true, !act.isEmpty, s.key⟩) := by
    refine ⟨_, rfl, ?_⟩
    unfold CTerm.hasNext
    rw [h.hnc]
    simp only [Bool.false_eq_true, if_false, hact]
  obtain ⟨act', ea, e1⟩ := e1
  rw [e1]
  generalize CTerm.advance C (C.val c).1 (c :: r) = act at *
  subst ea
  refine ⟨⟨rfl, rfl, ?_, ?_⟩, rfl⟩
  · simp only
    split
    · exact hsort.sorted _
    · next hl =>
      match act, hl with
      | [], _ => exact .nil
      | [x], _ => simp
      | _ :: _ :: _, hl => simp at hl
  · simp only
    split
    · obtain ⟨ms', h5, h6⟩ := h3.perm (hsort.perm _).symm
      exact ⟨ms', h5, h4.perm h6⟩
    · exact ⟨_, h3, h4⟩

theorem Fresh.yields (hsort : Composite.SortSpecD C sort) {s out} (h : Fresh C s out) :
    Yields (itr C sort) s out := by
  induction out generalizing s with
  | nil =>
    rw [yields_nil]
    change (CTerm.hasNext C sort s).1 = false
    unfold CTerm.hasNext
    rw [h.hnc]
    cases hn : s.nc with
    | false => simp
    | true =>
      obtain ⟨e, rest, h1, -⟩ := h.next hn
      simp at h1
  | cons x out ih =>
    have hh : CTerm.hasNext C sort s = (s.nc, s) := by unfold CTerm.hasNext; rw [h.hnc]; simp
    have hn : s.nc = true := by
      obtain ⟨ms, h1, h2⟩ := h.rem
      cases hact : s.active with
      | nil =>
        rw [hact] at h1
        cases h1
        simpa using h2.nil
      | cons c r => rw [h.nc, hact]; rfl
    obtain ⟨e, rest, h1, h2, h3⟩ := h.next hn
    obtain ⟨rfl, rfl⟩ := List.cons.inj h1
    rw [yields_cons]
    change (CTerm.hasNext C sort s).1 = true ∧ _
    refine ⟨by rw [hh]; exact hn, ?_, ?_⟩
    · change ((CTerm.next C (CTerm.hasNext C sort s).2).key, getCount C (CTerm.next C (CTerm.hasNext C sort s).2)) = x
      rw [hh]; exact h3
    · change Yields (itr C sort) (CTerm.next C (CTerm.hasNext C sort s).2) out
      rw [hh]
      obtain ⟨q1, q2⟩ := h2.hasNext hsort
      have := ih q1
      -- reading on from a state right after `next` is reading on after its `hasNext`
      have key : ∀ {t l}, (CTerm.hasNext C sort t).2.hnc = true → (CTerm.hasNext C sort t).1 = (CTerm.hasNext C sort t).2.nc →
          Yields (itr C sort) (CTerm.hasNext C sort t).2 l → Yields (itr C sort) t l := by
        intro t l a b hy
        have e2 : CTerm.hasNext C sort (CTerm.hasNext C sort t).2 = ((CTerm.hasNext C sort t).1, (CTerm.hasNext C sort t).2) := by
          rw [b]
          generalize (CTerm.hasNext C sort t).2 = u at *
          unfold CTerm.hasNext; rw [a]; simp
        cases l with
        | nil =>
          rw [yields_nil] at hy ⊢
          change (CTerm.hasNext C sort _).1 = false at hy
          rw [e2] at hy; exact hy
        | cons p l =>
          rw [yields_cons] at hy ⊢
          change (CTerm.hasNext C sort _).1 = true ∧ _ = _ ∧ Yields _ (CTerm.next C (CTerm.hasNext C sort _).2) l at hy
          change (CTerm.hasNext C sort t).1 = true ∧ (itr C sort).val (CTerm.next C (CTerm.hasNext C sort t).2) = _ ∧
            Yields _ (CTerm.next C (CTerm.hasNext C sort t).2) l
          have hv : (itr C sort).val ((itr C sort).next ((itr C sort).hasNext (CTerm.hasNext C sort t).2).2) =
            (itr C sort).val (CTerm.next C (CTerm.hasNext C sort (CTerm.hasNext C sort t).2).2) := rfl
          rw [hv, e2] at hy
          exact hy
      exact key q1.hnc q2 this

/-- A child that will return `l`, added to a merge. -/
theorem Fresh.add (hsort : Composite.SortSpecD C sort) {s out ms c l} (h : Fresh C s out) (hm : Rem C s.active ms)
    (hy : Yields C c l) (hl : (l.map (·.1)).Pairwise (· < ·)) :
    ∃ ms' out', Fresh C (CTerm.add C sort s c) out' ∧ Rem C (CTerm.add C sort s c).active ms' ∧ ms'.Perm (l ++ ms) := by
  have key : ∀ t : St σ, ∀ ms, t.hnc = true → (t.nc = !t.active.isEmpty) → Rem C t.active ms → (t.active.length ≤ 1 ∨ True) →
      ∃ ms' out', Fresh C (if t.active.length > 1 then { t with active := sort t.active } else t) out' ∧
        Rem C (if t.active.length > 1 then { t with active := sort t.active } else t).active ms' ∧ ms'.Perm ms := by
    intro t ms h1 h2 h3 _
    by_cases hl : t.active.length > 1
    · rw [if_pos hl]
      obtain ⟨ms', h5, h6⟩ := h3.perm (hsort.perm _).symm
      obtain ⟨out', h7⟩ := exists_isSum ms'
      refine ⟨ms', out', ⟨h1, ?_, hsort.sorted _, ⟨ms', h5, h7⟩⟩, h5, h6.symm⟩
      have := (hsort.perm t.active).length_eq
      show t.nc = !(sort t.active).isEmpty
      have : (sort t.active).isEmpty = t.active.isEmpty := by
        rw [Bool.eq_iff_iff, List.isEmpty_iff, List.isEmpty_iff, ← List.length_eq_zero_iff,
          ← List.length_eq_zero_iff, this]
      rw [h2, this]
    · rw [if_neg hl]
      obtain ⟨out', h7⟩ := exists_isSum ms
      refine ⟨ms, out', ⟨h1, h2, ?_, ⟨ms, h3, h7⟩⟩, h3, .refl _⟩
      match hact : t.active with
      | [] => exact .nil
      | [x] => simp
      | _ :: _ :: _ => rw [hact] at hl; simp at hl
  unfold CTerm.add
  cases l with
  | nil =>
    rw [yields_nil] at hy
    simp only [hy, Bool.false_eq_true, if_false, List.nil_append]
    exact key s ms h.hnc h.nc hm (.inr trivial)
  | cons e r =>
    rw [yields_cons] at hy
    obtain ⟨q1, q2, q3⟩ := hy
    simp only [q1, if_true]
    subst q2
    exact key { s with active := C.next (C.hasNext c).2 :: s.active, nc := true } _ h.hnc rfl (.cons q3 hl hm)
      (.inr trivial)

theorem fresh_init : Fresh C (init : St σ) [] :=
  ⟨rfl, rfl, .nil, [], .nil, by simp [IsSum]⟩

theorem build_yields (hsort : Composite.SortSpecD C sort) (xs : List (σ × List Pair))
    (h : ∀ x ∈ xs, Yields C x.1 x.2 ∧ (x.2.map (·.1)).Pairwise (· < ·)) {out}
    (ho : IsSum (xs.flatMap (·.2)) out) :
    Yields (itr C sort) ((xs.map (·.1)).foldl (CTerm.add C sort) init) out := by
  have key : ∀ (s : St σ) ms o, Fresh C s o → Rem C s.active ms →
      ∃ ms' out', Fresh C ((xs.map (·.1)).foldl (CTerm.add C sort) s) out' ∧
        Rem C ((xs.map (·.1)).foldl (CTerm.add C sort) s).active ms' ∧ ms'.Perm (xs.flatMap (·.2) ++ ms) := by
    clear ho
    induction xs with
    | nil => intro s ms o h1 h2; exact ⟨ms, o, h1, h2, .refl _⟩
    | cons x xs ih =>
      intro s ms o h1 h2
      obtain ⟨q1, q2⟩ := h x (by simp)
      obtain ⟨ms', o', a1, a2, a3⟩ := h1.add hsort h2 q1 q2
      obtain ⟨ms'', o'', b1, b2, b3⟩ := ih (fun y hy => h y (by simp [hy])) _ ms' o' a1 a2
      refine ⟨ms'', o'', b1, b2, b3.trans ?_⟩
      rw [List.flatMap_cons]
      exact (List.Perm.append_left _ a3).trans (by
        rw [← List.append_assoc]; exact List.Perm.append_right _ List.perm_append_comm)
  obtain ⟨ms', o', h1, h2, h3⟩ := key init [] [] fresh_init .nil
  rw [List.append_nil] at h3
  refine Fresh.yields hsort ⟨h1.hnc, h1.nc, h1.ord, ms', h2, ho.perm h3.symm⟩

end CTerm

theorem cterm_returns {sort : Sorter} (hsort : ∀ cs, Composite.SortSpecD (famItr cs) (sort cs))
    (xs : List (Obj × List Pair)) (h : ∀ x ∈ xs, x.1.Returns x.2 ∧ (x.2.map (·.1)).Pairwise (· < ·)) {out}
    (ho : IsSum (xs.flatMap (·.2)) out) : (Obj.cterm sort (objs xs)).Returns out := by
  have := CTerm.build_yields (hsort (objs xs)) (famList xs) (by
    intro y hy
    obtain ⟨x, hx, i, hi, rfl⟩ := famList_mem hy
    refine ⟨?_, (h x hx).2⟩
    apply fam_yields
    have h1 := (h x hx).1
    unfold Obj.Returns at h1
    rw [← hi] at h1
    exact h1) (out := out) (by rw [List.flatMap_def, famList_snd]; exact ho)
  rw [famList_fst] at this
  exact this

/-! ## Subtraction -/

/-- The keys of `ms` with the counts of `rs` subtracted; keys with nothing left disappear. -/
def subtract (ms rs : List Pair) : List Pair :=
  ms.filterMap fun p =>
    let d := ((rs.filter fun q => q.1 = p.1).map (·.2)).sum
    if d = p.2 then none else some (p.1, p.2 - d)

namespace RmTerm
variable {σ τ : Type} {M : Itr σ Pair} {R : Itr τ Pair} {fuel : Nat}

/-- `rm` stands on the first element of `rs` and will return the others. -/
def RmAt (R : Itr τ Pair) (rm : τ) (rs : List Pair) : Prop := ∃ rest, rs = R.val rm :: rest ∧ Yields R rm rest

structure Ok (ms rs : List Pair) : Prop where
  m : (ms.map (·.1)).Pairwise (· < ·)
  r : (rs.map (·.1)).Pairwise (· < ·)
  pos : ∀ p ∈ ms, 0 < p.2
  le : ∀ q ∈ rs, ∀ p ∈ ms, p.1 = q.1 → q.2 ≤ p.2

theorem Ok.tail {p ms rs} (h : Ok (p :: ms) rs) : Ok ms rs :=
  ⟨(List.pairwise_cons.1 h.m).2, h.r, fun x hx => h.pos x (by simp [hx]), fun q hq x hx => h.le q hq x (by simp [hx])⟩

theorem Ok.drop {pre ms rs} (h : Ok ms (pre ++ rs)) : Ok ms rs :=
  ⟨h.m, by have := h.r; rw [List.map_append] at this; exact (List.pairwise_append.1 this).2.1, h.pos,
    fun q hq => h.le q (by simp [hq])⟩

theorem subtract_drop {ms pre rs : List Pair} (h : ∀ p ∈ ms, ∀ q ∈ pre, q.1 < p.1) :
    subtract ms (pre ++ rs) = subtract ms rs := by
  induction ms with
  | nil => rfl
  | cons p ms ih =>
    have hp : (pre.filter fun q => decide (q.1 = p.1)) = [] := by
      rw [List.filter_eq_nil_iff]
      intro q hq
      have := h p (by simp) q hq
      simp; omega
    have ih := ih (fun x hx => h x (by simp [hx]))
    unfold subtract at ih ⊢
    rw [List.filterMap_cons, List.filterMap_cons, ih, List.filter_append, hp, List.nil_append]

theorem yields_probe (hid : Idem R) {s l} (h : Yields R s l) : Yields R (R.hasNext s).2 l := by
  cases l with
  | nil => rw [yields_nil] at h ⊢; rw [hid]; exact h
  | cons x l => rw [yields_cons] at h ⊢; rw [hid]; exact h

theorem catchUp_spec (hid : Idem R) (hst : ∀ s, R.val (R.hasNext s).2 = R.val s) (k : Int) (n : Nat) (rm : τ) (rs : List Pair)
    (h : RmAt R rm rs) (hr : (rs.map (·.1)).Pairwise (· < ·)) (hn : rs.length ≤ n) :
    ∃ pre rs', rs = pre ++ rs' ∧ (∀ q ∈ pre, q.1 < k) ∧ RmAt R (catchUp R k n rm) rs' ∧
      ((rs'.filter fun q => q.1 = k).map (·.2)).sum =
        if (R.val (catchUp R k n rm)).1 = k then (R.val (catchUp R k n rm)).2 else 0 := by
  induction n generalizing rm rs with
  | zero =>
    obtain ⟨rest, rfl, _⟩ := h
    simp at hn
  | succ n ih =>
    obtain ⟨rest, rfl, hy⟩ := h
    have hh := List.pairwise_cons.1 (by simpa using hr : ((R.val rm).1 :: rest.map (·.1)).Pairwise (· < ·))
    simp only [catchUp]
    by_cases hlt : (R.val rm).1 < k
    · rw [if_pos hlt]
      cases rest with
      | nil =>
        have hy' := yields_nil.1 hy
        simp only [hy', Bool.false_eq_true, if_false]
        refine ⟨[], _, rfl, by simp, ⟨[], by rw [hst], yields_probe hid hy⟩, ?_⟩
        rw [hst, if_neg (by omega), List.filter_cons]
        have : ¬ (R.val rm).1 = k := by omega
        simp [this]
      | cons e rest =>
        rw [yields_cons] at hy
        obtain ⟨q1, q2, q3⟩ := hy
        simp only [q1, if_true]
        obtain ⟨pre, rs', h1, h2, h3, h4⟩ := ih _ (e :: rest) ⟨rest, by rw [q2], q3⟩ hh.2 (by simp at hn ⊢; omega)
        refine ⟨R.val rm :: pre, rs', by rw [h1]; rfl, ?_, h3, h4⟩
        intro q hq
        rcases List.mem_cons.1 hq with rfl | hq
        · exact hlt
        · exact h2 q hq
    · rw [if_neg hlt]
      refine ⟨[], _, rfl, by simp, ⟨rest, rfl, hy⟩, ?_⟩
      have hre : (rest.filter fun q => decide (q.1 = k)) = [] := by
        rw [List.filter_eq_nil_iff]
        intro q hq
        have := hh.1 q.1 (List.mem_map.2 ⟨q, hq, rfl⟩)
        simp; omega
      rw [List.filter_cons, hre]
      by_cases he : (R.val rm).1 = k <;> simp [he]

/-- What the loop leaves: nothing more, or on an element of the result. -/
def Found (M : Itr σ Pair) (R : Itr τ Pair) (a b : Nat) (s : St σ τ) (out : List Pair) : Prop :=
  (s.hn = false ∧ out = []) ∨
  (s.hn = true ∧ ∃ rest rs, out = ((M.val s.main).1, getCount M R s) :: subtract rest rs ∧
    Yields M s.main rest ∧ RmAt R s.rm rs ∧ Ok rest rs ∧ rest.length ≤ a ∧ rs.length ≤ b)

theorem Found.mono {a b a' b' : Nat} {s : St σ τ} {out} (h : Found M R a b s out) (ha : a ≤ a') (hb : b ≤ b') :
    Found M R a' b' s out := by
  rcases h with h | ⟨h1, r, rs, h2, h3, h4, h5, h6, h7⟩
  · exact .inl h
  · exact .inr ⟨h1, r, rs, h2, h3, h4, h5, by omega, by omega⟩

theorem search_spec (hid : Idem R) (hst : ∀ s, R.val (R.hasNext s).2 = R.val s) (n : Nat) (s : St σ τ) (rest rs : List Pair)
    (hm : Yields M s.main rest) (hr : RmAt R s.rm rs) (hok : Ok (M.val s.main :: rest) rs) (hn : rest.length < n)
    (hf : rs.length ≤ fuel) (h1 : s.hn = false) (h2 : s.nextCount = -1) :
    Found M R rest.length rs.length (search M R fuel n s) (subtract (M.val s.main :: rest) rs) := by
  induction n generalizing s rest rs with
  | zero => omega
  | succ n ih =>
    obtain ⟨pre, rs', e, q1, q2, q3⟩ := catchUp_spec hid hst (M.val s.main).1 fuel s.rm rs hr hok.r hf
    simp only [search]
    generalize catchUp R (M.val s.main).1 fuel s.rm = rm' at *
    subst e
    have hok' := hok.drop
    have hms := List.pairwise_cons.1 (by simpa using hok.m : ((M.val s.main).1 :: rest.map (·.1)).Pairwise (· < ·))
    rw [subtract_drop (by
      intro p hp q hq
      have := q1 q hq
      rcases List.mem_cons.1 hp with rfl | hp
      · exact this
      · have := hms.1 p.1 (List.mem_map.2 ⟨p, hp, rfl⟩); omega)]
    have hpos := hok.pos (M.val s.main) (by simp)
    by_cases hk : (R.val rm').1 = (M.val s.main).1
    · rw [if_neg (by simpa using hk)]
      rw [if_pos hk] at q3
      by_cases hc : (R.val rm').2 = (M.val s.main).2
      · rw [if_pos hc]
        have hsub : subtract (M.val s.main :: rest) rs' = subtract rest rs' := by
          unfold subtract
          rw [List.filterMap_cons]
          simp only [q3, hc, if_true]
        rw [hsub]
        cases rest with
        | nil =>
          rw [yields_nil] at hm
          simp only [hm, Bool.false_eq_true, if_false]
          exact .inl ⟨h1, rfl⟩
        | cons x rest =>
          rw [yields_cons] at hm
          obtain ⟨a, b, c⟩ := hm
          simp only [a, if_true]
          subst b
          have := ih { s with rm := rm', main := M.next (M.hasNext s.main).2 } rest rs' c q2 hok'.tail (by simp at hn; omega) (by simp at hf; omega) h1 h2
          exact this.mono (by simp) (by simp)
      · rw [if_neg hc]
        have hle := hok'.le (R.val rm') (by obtain ⟨r, e, _⟩ := q2; rw [e]; simp) (M.val s.main) (by simp) hk.symm
        refine .inr ⟨rfl, rest, rs', ?_, hm, q2, hok'.tail, Nat.le_refl _, by simp⟩
        unfold subtract
        rw [List.filterMap_cons]
        simp only [q3, if_neg hc, getCount]
        rw [if_pos (by omega)]
    · rw [if_pos (by simpa using hk)]
      rw [if_neg hk] at q3
      refine .inr ⟨rfl, rest, rs', ?_, hm, q2, hok'.tail, Nat.le_refl _, by simp⟩
      unfold subtract
      rw [List.filterMap_cons]
      simp only [q3, if_neg (show ¬ (0 : Int) = (M.val s.main).2 by omega), getCount, h2]
      rw [if_neg (by simp), if_pos (by simpa using hk)]
      simp

theorem yields_of_hnc_false (hid : Idem R) (hst : ∀ s, R.val (R.hasNext s).2 = R.val s) (ms : List Pair) (s : St σ τ)
    (rs : List Pair) (hm : Yields M s.main ms) (hr : RmAt R s.rm rs) (hok : Ok ms rs) (hc : s.hnc = false)
    (hf1 : ms.length < fuel) (hf2 : rs.length ≤ fuel) : Yields (itr M R fuel) s (subtract ms rs) := by
  generalize hl : ms.length = len
  induction len using Nat.strongRecOn generalizing ms s rs with
  | _ len ih =>
    subst hl
    have hh : hasNext M R fuel s = ((if (M.hasNext s.main).1 then search M R fuel fuel
          { s with nextCount := -1, hn := false, main := M.next (M.hasNext s.main).2 }
        else { s with nextCount := -1, hn := false, main := (M.hasNext s.main).2 }).hn,
        { (if (M.hasNext s.main).1 then search M R fuel fuel
          { s with nextCount := -1, hn := false, main := M.next (M.hasNext s.main).2 }
        else { s with nextCount := -1, hn := false, main := (M.hasNext s.main).2 }) with hnc := true }) := by
      unfold hasNext
      rw [hc]
      simp only [Bool.false_eq_true, if_false]
    cases ms with
    | nil =>
      rw [yields_nil] at hm
      show Yields (itr M R fuel) s []
      rw [yields_nil]
      change (hasNext M R fuel s).1 = false
      rw [hh]
      simp [hm]
    | cons p rest =>
      rw [yields_cons] at hm
      obtain ⟨a, b, c⟩ := hm
      subst b
      have hs := search_spec (M := M) (R := R) (fuel := fuel) hid hst fuel
        { s with nextCount := -1, hn := false, main := M.next (M.hasNext s.main).2 } rest rs c hr hok
        (by simp at hf1; omega) hf2 rfl rfl
      rw [if_pos a] at hh
      generalize search M R fuel fuel { s with nextCount := -1, hn := false, main := M.next (M.hasNext s.main).2 } = t at *
      rcases hs with ⟨g1, g2⟩ | ⟨g1, rest', rs', g2, g3, g4, g5, g6, g7⟩
      · simp only at g2
        rw [g2, yields_nil]
        change (hasNext M R fuel s).1 = false
        rw [hh]; exact g1
      · simp only at g2
        rw [g2, yields_cons]
        change (hasNext M R fuel s).1 = true ∧ ((next M (hasNext M R fuel s).2).key,
          getCount M R (next M (hasNext M R fuel s).2)) = _ ∧ Yields (itr M R fuel) (next M (hasNext M R fuel s).2) _
        rw [hh]
        refine ⟨g1, rfl, ?_⟩
        simp only [List.length_cons] at hf1
        exact ih rest'.length (by simp; omega) rest' _ rs' g3 g4 g5 rfl (by omega) (by omega) rfl

end RmTerm

theorem rmterm_returns {main rm : Obj} {ms rs : List Pair} (hm : main.Returns ms) (hr : rm.Returns rs) (hne : rs ≠ [])
    (hid : Idem rm.I) (hst : rm.Steady) (hok : RmTerm.Ok ms rs) {fuel : Nat} (h1 : ms.length < fuel)
    (h2 : rs.length ≤ fuel) : (Obj.rmterm fuel main rm).Returns (subtract ms rs) := by
  cases rs with
  | nil => exact absurd rfl hne
  | cons r rest =>
    have hr' := yields_cons.1 hr
    refine RmTerm.yields_of_hnc_false hid hst ms _ (r :: rest) hm ⟨rest, ?_, ?_⟩ hok rfl h1 h2
    · show _ = rm.I.val (if (rm.I.hasNext rm.s).1 then _ else _) :: _
      rw [if_pos hr'.1, hr'.2.1]
    · show Yields rm.I (if (rm.I.hasNext rm.s).1 then _ else _) rest
      rw [if_pos hr'.1]; exact hr'.2.2

/-! ## Keys with their numbers of occurrences -/

theorem IsTermList.count {ks : List Int} {o : List Pair} (h : IsTermList ks o) (v : Int) :
    ((o.filter fun p => p.1 = v).map (·.2)).sum = (ks.count v : Int) := by
  obtain ⟨h1, h2, h3⟩ := h
  by_cases hv : v ∈ o.map (·.1)
  · obtain ⟨q, hq, rfl⟩ := List.mem_map.1 hv
    rw [filter_fst_unique h1 hq]
    simp [h3 q hq]
  · have : (o.filter fun p => decide (p.1 = v)) = [] := by
      rw [List.filter_eq_nil_iff]
      intro p hp
      simp only [decide_eq_true_eq]
      intro e
      exact hv (List.mem_map.2 ⟨p, hp, e⟩)
    rw [this]
    have : v ∉ ks := fun hk => hv ((h2 v).2 hk)
    simp [List.count_eq_zero.2 this]

theorem isTermList_flatMap {ys : List (List Int × List Pair)} (h : ∀ y ∈ ys, IsTermList y.1 y.2) {out}
    (ho : IsSum (ys.flatMap (·.2)) out) : IsTermList (ys.flatMap (·.1)) out := by
  obtain ⟨h1, h2, h3⟩ := ho
  refine ⟨h1, fun v => (h2 v).trans ?_, fun q hq => ?_⟩
  · simp only [List.mem_map, List.mem_flatMap]
    constructor
    · rintro ⟨p, ⟨y, hy, hp⟩, rfl⟩
      exact ⟨y, hy, ((h y hy).2.1 p.1).1 (List.mem_map.2 ⟨p, hp, rfl⟩)⟩
    · rintro ⟨y, hy, hv⟩
      obtain ⟨p, hp, rfl⟩ := List.mem_map.1 (((h y hy).2.1 v).2 hv)
      exact ⟨p, ⟨y, hy, hp⟩, rfl⟩
  · rw [h3 q hq]
    clear h1 h2 h3 hq
    induction ys with
    | nil => simp
    | cons y ys ih =>
      rw [List.flatMap_cons, List.flatMap_cons, List.filter_append, List.map_append, sum_append,
        ih (fun z hz => h z (by simp [hz])), (h y (by simp)).count, List.count_append]
      omega

theorem IsTermList.perm {ks ks' o} (h : IsTermList ks o) (hp : ks.Perm ks') : IsTermList ks' o :=
  ⟨h.1, fun v => (h.2.1 v).trans hp.mem_iff, fun q hq => by rw [h.2.2 q hq, hp.count_eq]⟩

theorem IsTermList.pos {ks o} (h : IsTermList ks o) : ∀ p ∈ o, 0 < p.2 := by
  intro p hp
  rw [h.2.2 p hp]
  have := List.count_pos_iff.2 ((h.2.1 p.1).1 (List.mem_map.2 ⟨p, hp, rfl⟩))
  omega

theorem subtract_ok {ks ds ks' : List Int} {ms rs : List Pair} (hm : IsTermList ks ms) (hr : IsTermList ds rs)
    (hp : ks.Perm (ds ++ ks')) : RmTerm.Ok ms rs := by
  refine ⟨hm.1, hr.1, hm.pos, fun q hq p hp' e => ?_⟩
  rw [hm.2.2 p hp', hr.2.2 q hq, hp.count_eq, List.count_append, e]
  omega

theorem subtract_isTermList {ks ds ks' : List Int} {ms rs : List Pair} (hm : IsTermList ks ms) (hr : IsTermList ds rs)
    (hp : ks.Perm (ds ++ ks')) : IsTermList ks' (subtract ms rs) := by
  have key : ∀ q, q ∈ subtract ms rs ↔ ∃ p ∈ ms, q.1 = p.1 ∧ q.2 = (ks'.count p.1 : Int) ∧ q.2 ≠ 0 := by
    intro q
    unfold subtract
    rw [List.mem_filterMap]
    constructor
    · rintro ⟨p, hp', h⟩
      simp only [hr.count] at h
      have hc := hm.2.2 p hp'
      rw [hp.count_eq, List.count_append] at hc
      split at h
      · simp at h
      · simp only [Option.some.injEq] at h
        subst h
        exact ⟨p, hp', rfl, by simp only; omega, by simp only; omega⟩
    · rintro ⟨p, hp', h1, h2, h3⟩
      refine ⟨p, hp', ?_⟩
      simp only [hr.count]
      have hc := hm.2.2 p hp'
      rw [hp.count_eq, List.count_append] at hc
      rw [if_neg (by omega)]
      rw [Option.some.injEq]
      exact Prod.ext h1.symm (by simp only; omega)
  refine ⟨?_, fun v => ?_, fun q hq => ?_⟩
  · have h1 := hm.1
    unfold subtract
    clear key hp hm
    induction ms with
    | nil => simp
    | cons p ms ih =>
      rw [List.map_cons, List.pairwise_cons] at h1
      rw [List.filterMap_cons]
      split
      · exact ih h1.2
      · next b hb =>
        rw [List.map_cons, List.pairwise_cons]
        refine ⟨fun x hx => ?_, ih h1.2⟩
        obtain ⟨y, hy, rfl⟩ := List.mem_map.1 hx
        obtain ⟨z, hz, hzy⟩ := List.mem_filterMap.1 hy
        have e1 : b.1 = p.1 := by simp only at hb; split at hb <;> simp at hb; rw [← hb]
        have e2 : y.1 = z.1 := by simp only at hzy; split at hzy <;> simp at hzy; rw [← hzy]
        rw [e1, e2]
        exact h1.1 z.1 (List.mem_map.2 ⟨z, hz, rfl⟩)
  · rw [List.mem_map]
    constructor
    · rintro ⟨q, hq, rfl⟩
      obtain ⟨p, _, h1, h2, h3⟩ := (key q).1 hq
      rw [h1]
      exact List.count_pos_iff.1 (by omega)
    · intro hv
      have hk : v ∈ ks := hp.mem_iff.2 (by simp [hv])
      obtain ⟨p, hp', rfl⟩ := List.mem_map.1 ((hm.2.1 v).2 hk)
      have := List.count_pos_iff.2 hv
      exact ⟨(p.1, (ks'.count p.1 : Int)), (key _).2 ⟨p, hp', rfl, rfl, by simp only; omega⟩, rfl⟩
  · obtain ⟨p, _, h1, h2, h3⟩ := (key q).1 hq
    rw [h2, h1]

end Trident
