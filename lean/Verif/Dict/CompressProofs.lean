import Verif.Dict.Compress
namespace Trident.Dict

theorem lookup_mem {α β : Type} [BEq α] [LawfulBEq α] {k : α} {v : β} : ∀ {l : List (α × β)}, l.lookup k = some v → (k, v) ∈ l
  | [], h => by simp at h
  | (a, b) :: l, h => by
    rw [List.lookup_cons] at h
    split at h
    · rename_i e
      simp only [Option.some.injEq] at h
      rw [eq_of_beq e, h]; simp
    · exact List.mem_cons_of_mem _ (lookup_mem h)

theorem lookup_of_mem {α β : Type} [BEq α] [LawfulBEq α] {k : α} {v : β} : ∀ {l : List (α × β)}, (l.map (·.1)).Nodup → (k, v) ∈ l → l.lookup k = some v
  | [], _, h => by simp at h
  | (a, b) :: l, hn, h => by
    rw [List.lookup_cons]
    rw [List.map_cons, List.nodup_cons] at hn
    rcases List.mem_cons.1 h with h5 | h6
    · injection h5 with h3 h4
      subst h3; subst h4
      simp
    · have : k ≠ a := by
        rintro rfl
        exact hn.1 (List.mem_map.2 ⟨_, h6, rfl⟩)
      have e : (k == a) = false := by simpa using this
      rw [e]
      exact lookup_of_mem hn.2 h6

theorem lookup_none {α β : Type} [BEq α] [LawfulBEq α] {k : α} : ∀ {l : List (α × β)}, l.lookup k = none ↔ k ∉ l.map (·.1)
  | [] => by simp
  | (a, b) :: l => by
    rw [List.lookup_cons]
    by_cases h : k = a
    · subst h; simp
    · have e : (k == a) = false := by simpa using h
      simp only [e]
      rw [lookup_none, List.map_cons, List.mem_cons]
      simp [h]

/-! ## The order of texts -/

theorem strncmp_len : ∀ (n : Nat) (a b : Text), (0 : UInt8) ∉ a → (0 : UInt8) ∉ b → n ≤ a.length → n ≤ b.length → strncmp n a b = .eq → a.take n = b.take n
  | 0, a, b, _, _, _, _, _ => by simp
  | n + 1, [], b, _, _, h, _, _ => by simp at h
  | n + 1, _ :: _, [], _, _, _, h, _ => by simp at h
  | n + 1, x :: a, y :: b, ha, hb, h1, h2, h => by
    rw [strncmp] at h
    split at h
    · simp at h
    · split at h
      · simp at h
      · rename_i h3 h4
        have e : x = y := by
          apply UInt8.le_antisymm
          · exact UInt8.not_lt.1 h4
          · exact UInt8.not_lt.1 h3
        subst e
        rw [if_neg (by intro e; exact ha (by simp [e]))] at h
        rw [List.take_succ_cons, List.take_succ_cons, strncmp_len n a b (fun x => ha (by simp [x])) (fun x => hb (by simp [x])) (by simpa using h1)
          (by simpa using h2) h]

theorem strncmp_swap : ∀ (n : Nat) (a b : Text), strncmp n a b = .lt ↔ strncmp n b a = .gt
  | 0, a, b => by simp [strncmp]
  | n + 1, [], b => by cases b <;> simp [strncmp]
  | n + 1, _ :: _, [] => by simp [strncmp]
  | n + 1, x :: a, y :: b => by
    rw [strncmp, strncmp]
    by_cases h : x < y
    · rw [if_pos h, if_neg (UInt8.lt_asymm h), if_pos h]; simp
    · rw [if_neg h]
      by_cases h2 : y < x
      · rw [if_pos h2, if_pos h2]; simp
      · rw [if_neg h2, if_neg h2, if_neg h]
        have e : x = y := UInt8.le_antisymm (UInt8.not_lt.1 h2) (UInt8.not_lt.1 h)
        subst e
        split
        · simp
        · exact strncmp_swap n a b

/-- Texts without zero bytes that are not ordered are equal. -/
theorem lessThan_antisymm {a b : Text} (ha : (0 : UInt8) ∉ a) (hb : (0 : UInt8) ∉ b) (h1 : lessThan a b = false) (h2 : lessThan b a = false) : a = b := by
  unfold lessThan at h1 h2
  rw [Nat.min_comm b.length] at h2
  have sw := strncmp_swap (min a.length b.length) a b
  have sw' := strncmp_swap (min a.length b.length) b a
  cases h : strncmp (min a.length b.length) a b with
  | lt => simp [h] at h1
  | gt => rw [h] at sw'; simp [sw'.2 rfl] at h2
  | eq =>
    have h' : strncmp (min a.length b.length) b a = .eq := by
      cases e : strncmp (min a.length b.length) b a with
      | lt => rw [e, h] at sw'; simp at sw'
      | gt => rw [e, h] at sw; simp at sw
      | eq => rfl
    rw [h] at h1
    rw [h'] at h2
    simp only [decide_eq_false_iff_not] at h1 h2
    have := strncmp_len _ a b ha hb (Nat.min_le_left _ _) (Nat.min_le_right _ _) h
    rwa [List.take_of_length_le (by omega), List.take_of_length_le (by omega)] at this

/-! ## Additions -/

/-- The ids given so far: those of the dictionary, then the new ones. -/
def Acc.idOf (get : Text → Option Nat) (a : Acc) (t : Text) : Nat := (get t).getD ((a.tmp.lookup t).getD 0)

/-- The new terms have consecutive ids, from `base` on, and are not in the dictionary. -/
structure Acc.Ok (get : Text → Option Nat) (base : Nat) (a : Acc) : Prop where
  ids : a.tmp.map (·.2) = List.range' base a.tmp.length
  next : a.next = base + a.tmp.length
  keys : (a.tmp.map (·.1)).Nodup
  fresh : ∀ x ∈ a.tmp, get x.1 = none
  prev : a.support ≠ [] → (get a.support = some a.prev ∨ (get a.support = none ∧ a.tmp.lookup a.support = some a.prev))

theorem lookup_append_left {α β : Type} [BEq α] [LawfulBEq α] {k : α} {v : β} : ∀ {l l' : List (α × β)}, l.lookup k = some v → (l ++ l').lookup k = some v
  | [], _, h => by simp at h
  | (a, b) :: l, l', h => by
    rw [List.cons_append, List.lookup_cons]
    rw [List.lookup_cons] at h
    split
    · rename_i e; rwa [e] at h
    · rename_i e; rw [e] at h; exact lookup_append_left h

theorem lookup_append_right {α β : Type} [BEq α] [LawfulBEq α] {k : α} : ∀ {l l' : List (α × β)}, l.lookup k = none → (l ++ l').lookup k = l'.lookup k
  | [], _, _ => rfl
  | (a, b) :: l, l', h => by
    rw [List.cons_append, List.lookup_cons]
    rw [List.lookup_cons] at h
    split
    · rename_i e; rw [e] at h; simp at h
    · rename_i e; rw [e] at h; exact lookup_append_right h

/-- One round: the id of the term is the one that it keeps. -/
theorem step_add {get : Text → Option Nat} {base : Nat} {a : Acc} {useTmp : Bool} {t : Text} (h : a.Ok get base) (ht : t ≠ [])
    (hu : useTmp = false → t ∈ a.tmp.map (·.1) → t = a.support) :
    let r := step true useTmp get a t
    r.2.Ok get base ∧ r.2.support = t ∧ (∃ ext, r.2.tmp = a.tmp ++ ext ∧ ∀ x ∈ ext, x.1 = t) ∧ (get t = some r.1 ∨ (get t = none ∧ r.2.tmp.lookup t = some r.1)) := by
  intro r
  have hr : r = step true useTmp get a t := rfl
  clear_value r
  unfold step at hr
  by_cases hs : a.support.length = t.length ∧ t = a.support
  · rw [if_pos hs] at hr
    subst hr
    refine ⟨h, hs.2.symm, ⟨[], by simp⟩, ?_⟩
    have := h.prev (by rw [← hs.2]; exact ht)
    rwa [← hs.2] at this
  · rw [if_neg hs] at hr
    have hs' : t ≠ a.support := fun e => hs ⟨by rw [e], e⟩
    cases hg : get t with
    | some id =>
      rw [hg] at hr
      subst hr
      exact ⟨⟨h.ids, h.next, h.keys, h.fresh, fun _ => .inl hg⟩, rfl, ⟨[], by simp⟩, .inl rfl⟩
    | none =>
      rw [hg] at hr
      simp only [if_true] at hr
      cases hl : a.tmp.lookup t with
      | some id =>
        cases useTmp with
        | false => exact absurd (hu rfl (List.mem_map.2 ⟨_, lookup_mem hl, rfl⟩)) hs'
        | true =>
          simp only [if_true, hl] at hr
          subst hr
          exact ⟨⟨h.ids, h.next, h.keys, h.fresh, fun _ => .inr ⟨hg, hl⟩⟩, rfl, ⟨[], by simp⟩, .inr ⟨rfl, hl⟩⟩
      | none =>
        have hr : r = (a.next, { support := t, prev := a.next, next := a.next + 1, tmp := a.tmp ++ [(t, a.next)] }) := by
          cases useTmp
          · simpa [hl] using hr
          · simpa [hl] using hr
        subst hr
        have hlk : (a.tmp ++ [(t, a.next)]).lookup t = some a.next := by
          rw [lookup_append_right hl]; simp
        refine ⟨⟨?_, ?_, ?_, ?_, fun _ => .inr ⟨hg, hlk⟩⟩, rfl, ⟨[(t, a.next)], rfl, by simp⟩, .inr ⟨rfl, hlk⟩⟩
        · simp only [List.map_append, h.ids, List.length_append, List.map_cons, List.map_nil, List.length_cons, List.length_nil]
          rw [List.range'_concat, h.next]; simp
        · simp only [List.length_append, List.length_cons, List.length_nil, h.next]; omega
        · simp only [List.map_append, List.map_cons, List.map_nil]
          rw [List.nodup_append]
          refine ⟨h.keys, by simp, ?_⟩
          intro x hx y hy e
          simp only [List.mem_singleton] at hy
          subst hy; subst e
          exact lookup_none.1 hl hx
        · intro x hx
          rcases List.mem_append.1 hx with hx | hx
          · exact h.fresh x hx
          · simp only [List.mem_singleton] at hx
            rw [hx]; exact hg

/-- A column of an addition. -/
theorem pass_add {get : Text → Option Nat} {base : Nat} {useTmp : Bool} : ∀ (ts : List Text) {a : Acc}, a.Ok get base → (∀ t ∈ ts, t ≠ []) →
    (useTmp = false → (∀ t ∈ ts, (0 : UInt8) ∉ t) ∧ (ts.Pairwise fun x y => lessThan y x = false) ∧ (∀ t ∈ ts, lessThan t a.support = false) ∧
      (0 : UInt8) ∉ a.support ∧ (∀ t ∈ ts, ∀ k ∈ a.tmp.map (·.1), k ≠ a.support → t ≠ k)) →
    (pass true useTmp get ts a).2.Ok get base ∧ (∃ ext, (pass true useTmp get ts a).2.tmp = a.tmp ++ ext ∧ ∀ x ∈ ext, x.1 ∈ ts) ∧
      (pass true useTmp get ts a).1 = ts.map ((pass true useTmp get ts a).2.idOf get) ∧
      (∀ t ∈ ts, get t = none → t ∈ (pass true useTmp get ts a).2.tmp.map (·.1))
  | [], a, h, _, _ => ⟨h, ⟨[], by simp [pass]⟩, rfl, by simp⟩
  | t :: ts, a, h, hne, hs => by
    obtain ⟨h1, h2, ⟨e1, he1, hx1⟩, h3⟩ := step_add (useTmp := useTmp) (t := t) h (hne t (by simp)) (by
      intro hu hm
      by_cases e : t = a.support
      · exact e
      · exact absurd rfl ((hs hu).2.2.2.2 t (by simp) t hm e))
    obtain ⟨q1, ⟨e2, he2, hx2⟩, q3, q4⟩ := pass_add (useTmp := useTmp) ts h1 (fun x hx => hne x (by simp [hx])) (by
      intro hu
      obtain ⟨z, so, su, zs, di⟩ := hs hu
      rw [List.pairwise_cons] at so
      refine ⟨fun x hx => z x (by simp [hx]), so.2, by rw [h2]; exact so.1, by rw [h2]; exact z t (by simp), ?_⟩
      intro x hx k hk hks e
      subst e
      rw [h2] at hks
      rw [he1, List.map_append, List.mem_append] at hk
      rcases hk with hk | hk
      · by_cases hka : x = a.support
        · subst hka
          exact hks (lessThan_antisymm zs (z t (by simp)) (so.1 _ hx) (su t (by simp)))
        · exact di x (by simp [hx]) x hk hka rfl
      · obtain ⟨y, hy, e⟩ := List.mem_map.1 hk
        exact hks (e ▸ hx1 y hy))
    have hr : pass true useTmp get (t :: ts) a = ((step true useTmp get a t).1 :: (pass true useTmp get ts (step true useTmp get a t).2).1,
      (pass true useTmp get ts (step true useTmp get a t).2).2) := rfl
    rw [hr]
    have hlk : get t = none → (pass true useTmp get ts (step true useTmp get a t).2).2.tmp.lookup t = some (step true useTmp get a t).1 := by
      intro hg
      rcases h3 with h3 | h3
      · rw [hg] at h3; simp at h3
      · rw [he2]; exact lookup_append_left h3.2
    refine ⟨q1, ⟨e1 ++ e2, by rw [he2, he1, List.append_assoc], ?_⟩, ?_, ?_⟩
    · intro x hx
      rcases List.mem_append.1 hx with hx | hx
      · rw [hx1 x hx]; simp
      · exact List.mem_cons_of_mem _ (hx2 x hx)
    · rw [List.map_cons, q3]
      congr 1
      unfold Acc.idOf
      rcases h3 with h3 | h3
      · rw [h3]; rfl
      · rw [h3.1, hlk h3.1]; rfl
    · intro x hx hg
      rcases List.mem_cons.1 hx with rfl | hx
      · exact List.mem_map.2 ⟨_, lookup_mem (hlk hg), rfl⟩
      · exact q4 x hx hg

/-- Later terms do not change the ids of earlier ones. -/
theorem idOf_stable {get : Text → Option Nat} {a b : Acc} {ext : List (Text × Nat)} (h : b.tmp = a.tmp ++ ext) {t : Text}
    (ht : get t = none → t ∈ a.tmp.map (·.1)) : b.idOf get t = a.idOf get t := by
  unfold Acc.idOf
  cases hg : get t with
  | some x => rfl
  | none =>
    cases hl : a.tmp.lookup t with
    | none => exact absurd (ht hg) (lookup_none.1 hl)
    | some v => rw [h, lookup_append_left hl]

theorem zip_map {α β : Type} (f : α → β → α) (g : α → β) : ∀ (l : List α), List.zipWith f l (l.map g) = l.map fun x => f x (g x)
  | [] => rfl
  | x :: l => by simp [zip_map f g l]

/-- The terms of an update. -/
def terms (l : List TT) : List Text := l.map TT.s ++ l.map TT.p ++ l.map TT.o

/-- An addition, without the test for `UINT64_MAX`. -/
theorem compress_add {srt : (TT → Text) → List TT → List TT} (hs : SortsTT srt) {get : Text → Option Nat} {next : Nat} {l : List TT}
    (hne : ∀ t ∈ terms l, t ≠ []) (h0 : ∀ x ∈ l, (0 : UInt8) ∉ x.s) :
    ∃ a : Acc, (compress srt true get next l).2 = a ∧ a.Ok get next ∧ (∀ x ∈ a.tmp, x.1 ∈ terms l) ∧ (∀ t ∈ terms l, get t = none → t ∈ a.tmp.map (·.1)) ∧
      ∃ l', (compress srt true get next l).1 = complete l' ∧
        l'.Perm (l.map fun x => { x with ns := a.idOf get x.s, np := a.idOf get x.p, no := a.idOf get x.o }) := by
  have hm : ∀ f l' x, x ∈ srt f l' ↔ x ∈ l' := fun f l' x => (hs.perm f l').mem_iff
  obtain ⟨a1, ⟨e1, b1, c1⟩, d1, k1⟩ := pass_add (get := get) (base := next) (useTmp := false) ((srt TT.s l).map TT.s)
    (a := ⟨[], noId, next, []⟩) ⟨rfl, rfl, by simp, by simp, by simp⟩ (by
      intro t ht
      obtain ⟨x, hx, rfl⟩ := List.mem_map.1 ht
      exact hne _ (by simp only [terms, List.mem_append]; exact .inl (.inl (List.mem_map.2 ⟨x, (hm _ _ _).1 hx, rfl⟩)))) (by
      intro _
      refine ⟨?_, ?_, ?_, by simp, by simp⟩
      · intro t ht
        obtain ⟨x, hx, rfl⟩ := List.mem_map.1 ht
        exact h0 x ((hm _ _ _).1 hx)
      · rw [List.pairwise_map]
        exact hs.sorted TT.s l h0
      · intro t _
        simp [lessThan, strncmp])
  let l1 := srt TT.s l
  let r1 := pass true false get (l1.map TT.s) ⟨[], noId, next, []⟩
  let l2 := srt TT.p (List.zipWith (fun t n => { t with ns := n }) l1 r1.1)
  have el2 : l2 = srt TT.p (l1.map fun x => { x with ns := r1.2.idOf get x.s }) := by
    show srt TT.p (List.zipWith (fun t n => { t with ns := n }) l1 r1.1) = _
    have : r1.1 = l1.map fun x => r1.2.idOf get x.s := by
      show (pass true false get ((srt TT.s l).map TT.s) ⟨[], noId, next, []⟩).1 = _
      rw [d1, List.map_map]; rfl
    rw [this, zip_map]
  have m2 : ∀ y, y ∈ l2 → ∃ x ∈ l, y = { x with ns := r1.2.idOf get x.s } := by
    intro y hy
    rw [el2, hm] at hy
    obtain ⟨x, hx, rfl⟩ := List.mem_map.1 hy
    exact ⟨x, (hm _ _ _).1 hx, rfl⟩
  obtain ⟨a2, ⟨e2, b2, c2⟩, d2, k2⟩ := pass_add (get := get) (base := next) (useTmp := true) (l2.map TT.p)
    (a := { r1.2 with support := [] }) ⟨a1.ids, a1.next, a1.keys, a1.fresh, by simp⟩ (by
      intro t ht
      obtain ⟨y, hy, rfl⟩ := List.mem_map.1 ht
      obtain ⟨x, hx, rfl⟩ := m2 y hy
      exact hne _ (by simp only [terms, List.mem_append]; exact .inl (.inr (List.mem_map.2 ⟨x, hx, rfl⟩)))) (by simp)
  let r2 := pass true true get (l2.map TT.p) { r1.2 with support := [] }
  let l3 := srt TT.o (List.zipWith (fun t n => { t with np := n }) l2 r2.1)
  have el3 : l3 = srt TT.o (l2.map fun x => { x with np := r2.2.idOf get x.p }) := by
    show srt TT.o (List.zipWith (fun t n => { t with np := n }) l2 r2.1) = _
    have : r2.1 = l2.map fun x => r2.2.idOf get x.p := by
      show (pass true true get (l2.map TT.p) { r1.2 with support := [] }).1 = _
      rw [d2, List.map_map]; rfl
    rw [this, zip_map]
  have m3 : ∀ y, y ∈ l3 → ∃ x ∈ l, y = { x with ns := r1.2.idOf get x.s, np := r2.2.idOf get x.p } := by
    intro y hy
    rw [el3, hm] at hy
    obtain ⟨x, hx, rfl⟩ := List.mem_map.1 hy
    obtain ⟨z, hz, rfl⟩ := m2 x hx
    exact ⟨z, hz, rfl⟩
  obtain ⟨a3, ⟨e3, b3, c3⟩, d3, k3⟩ := pass_add (get := get) (base := next) (useTmp := true) (l3.map TT.o)
    (a := { r2.2 with support := [] }) ⟨a2.ids, a2.next, a2.keys, a2.fresh, by simp⟩ (by
      intro t ht
      obtain ⟨y, hy, rfl⟩ := List.mem_map.1 ht
      obtain ⟨x, hx, rfl⟩ := m3 y hy
      exact hne _ (by simp only [terms, List.mem_append]; exact .inr (List.mem_map.2 ⟨x, hx, rfl⟩))) (by simp)
  let r3 := pass true true get (l3.map TT.o) { r2.2 with support := [] }
  have t12 : r2.2.tmp = r1.2.tmp ++ e2 := b2
  have t23 : r3.2.tmp = r2.2.tmp ++ e3 := b3
  have hk1 : ∀ x ∈ l, get x.s = none → x.s ∈ r1.2.tmp.map (·.1) := fun x hx => k1 x.s (List.mem_map.2 ⟨x, (hm _ _ _).2 hx, rfl⟩)
  have p2 : l2.Perm (l.map fun x => { x with ns := r1.2.idOf get x.s }) := by
    rw [el2]; exact (hs.perm _ _).trans ((hs.perm _ _).map _)
  have p3 : l3.Perm (l.map fun x => { x with ns := r1.2.idOf get x.s, np := r2.2.idOf get x.p }) := by
    rw [el3]
    refine (hs.perm _ _).trans ((p2.map _).trans ?_)
    rw [List.map_map]; exact .refl _
  have hk2 : ∀ x ∈ l, get x.p = none → x.p ∈ r2.2.tmp.map (·.1) := fun x hx =>
    k2 x.p (List.mem_map.2 ⟨{ x with ns := r1.2.idOf get x.s }, p2.mem_iff.2 (List.mem_map.2 ⟨x, hx, rfl⟩), rfl⟩)
  have hk3 : ∀ x ∈ l, get x.o = none → x.o ∈ r3.2.tmp.map (·.1) := fun x hx =>
    k3 x.o (List.mem_map.2 ⟨{ x with ns := r1.2.idOf get x.s, np := r2.2.idOf get x.p }, p3.mem_iff.2 (List.mem_map.2 ⟨x, hx, rfl⟩), rfl⟩)
  have mono12 : ∀ t, t ∈ r1.2.tmp.map (·.1) → t ∈ r2.2.tmp.map (·.1) := fun t h => by rw [t12, List.map_append]; exact List.mem_append_left _ h
  have mono23 : ∀ t, t ∈ r2.2.tmp.map (·.1) → t ∈ r3.2.tmp.map (·.1) := fun t h => by rw [t23, List.map_append]; exact List.mem_append_left _ h
  refine ⟨r3.2, rfl, a3, ?_, ?_, List.zipWith (fun t n => { t with no := n }) l3 r3.1, rfl, ?_⟩
  · intro x hx
    rw [t23, t12, show r1.2.tmp = [] ++ e1 from b1] at hx
    simp only [List.nil_append, List.mem_append] at hx
    simp only [terms, List.mem_append]
    rcases hx with (hx | hx) | hx
    · left; left
      have := c1 x hx
      obtain ⟨y, hy, e⟩ := List.mem_map.1 this
      exact List.mem_map.2 ⟨y, (hm _ _ _).1 hy, e⟩
    · left; right
      obtain ⟨y, hy, e⟩ := List.mem_map.1 (c2 x hx)
      obtain ⟨z, hz, rfl⟩ := m2 y hy
      exact List.mem_map.2 ⟨z, hz, e⟩
    · right
      obtain ⟨y, hy, e⟩ := List.mem_map.1 (c3 x hx)
      obtain ⟨z, hz, rfl⟩ := m3 y hy
      exact List.mem_map.2 ⟨z, hz, e⟩
  · intro t ht hg
    simp only [terms, List.mem_append] at ht
    rcases ht with (ht | ht) | ht
    · obtain ⟨x, hx, rfl⟩ := List.mem_map.1 ht
      exact mono23 _ (mono12 _ (hk1 x hx hg))
    · obtain ⟨x, hx, rfl⟩ := List.mem_map.1 ht
      exact mono23 _ (hk2 x hx hg)
    · obtain ⟨x, hx, rfl⟩ := List.mem_map.1 ht
      exact hk3 x hx hg
  · have : r3.1 = l3.map fun x => r3.2.idOf get x.o := by
      show (pass true true get (l3.map TT.o) { r2.2 with support := [] }).1 = _
      rw [d3, List.map_map]; rfl
    rw [this, zip_map]
    refine (p3.map _).trans ?_
    rw [List.map_map]
    refine .of_eq (List.map_congr_left fun x hx => ?_)
    simp only [Function.comp_apply]
    rw [← idOf_stable t12 (hk1 x hx), ← idOf_stable t23 (fun hg => mono12 _ (hk1 x hx hg)), ← idOf_stable t23 (hk2 x hx)]

/-! ## Deletions -/

/-- A column of a deletion in which no unknown term is repeated. -/
theorem pass_delete {get : Text → Option Nat} {useTmp : Bool} : ∀ (ts : List Text) {a : Acc}, (∀ t ∈ ts, t ≠ []) →
    (∀ t ∈ ts, get t = none → ts.count t = 1) → (a.support = [] ∨ get a.support = some a.prev ∨ a.support ∉ ts) →
    (pass false useTmp get ts a).1 = ts.map fun t => (get t).getD noId
  | [], a, _, _, _ => rfl
  | t :: ts, a, hne, hc, hp => by
    have key : (step false useTmp get a t).1 = (get t).getD noId ∧
        ((step false useTmp get a t).2.support = [] ∨ get (step false useTmp get a t).2.support = some (step false useTmp get a t).2.prev ∨
          (step false useTmp get a t).2.support ∉ ts) := by
      unfold step
      by_cases hs : a.support.length = t.length ∧ t = a.support
      · rw [if_pos hs]
        have : get a.support = some a.prev := by
          rcases hp with hp | hp | hp
          · exact absurd (hs.2.trans hp) (hne t (by simp))
          · exact hp
          · exact absurd (by rw [← hs.2]; simp) hp
        exact ⟨by rw [hs.2, this]; rfl, .inr (.inl this)⟩
      · rw [if_neg hs]
        cases hg : get t with
        | some id => exact ⟨rfl, .inr (.inl hg)⟩
        | none =>
          refine ⟨rfl, .inr (.inr ?_)⟩
          show t ∉ ts
          have := hc t (by simp) hg
          rw [List.count_cons_self] at this
          exact List.count_eq_zero.1 (by omega)
    show (step false useTmp get a t).1 :: (pass false useTmp get ts (step false useTmp get a t).2).1 = _
    rw [List.map_cons, key.1, pass_delete ts (fun x hx => hne x (by simp [hx])) ?_ key.2]
    intro x hx hg
    have := hc x (by simp [hx]) hg
    by_cases e : x = t
    · subst e
      rw [List.count_cons_self] at this
      have h2 := List.count_pos_iff.2 hx
      omega
    · rwa [List.count_cons_of_ne (Ne.symm e)] at this

theorem compress_delete {srt : (TT → Text) → List TT → List TT} (hs : SortsTT srt) {get : Text → Option Nat} {next : Nat} {l : List TT}
    (hne : ∀ t ∈ terms l, t ≠ []) (h1 : ∀ t ∈ l.map TT.s, get t = none → (l.map TT.s).count t = 1) (h2 : ∀ t ∈ l.map TT.p, get t = none → (l.map TT.p).count t = 1)
    (h3 : ∀ t ∈ l.map TT.o, get t = none → (l.map TT.o).count t = 1) :
    ∃ l', (compress srt false get next l).1 = complete l' ∧
      l'.Perm (l.map fun x => { x with ns := (get x.s).getD noId, np := (get x.p).getD noId, no := (get x.o).getD noId }) := by
  have hcol : ∀ (f : TT → Text) (l' : List TT), (l'.map f).Perm (l.map f) → (∀ t ∈ l.map f, t ∈ terms l) → (∀ t ∈ l.map f, get t = none → (l.map f).count t = 1) →
      (∀ t ∈ l'.map f, t ≠ []) ∧ ∀ t ∈ l'.map f, get t = none → (l'.map f).count t = 1 := by
    intro f l' hp ht hc
    refine ⟨fun t h => hne t (ht t (hp.mem_iff.1 h)), fun t h hg => ?_⟩
    rw [hp.count_eq]
    exact hc t (hp.mem_iff.1 h) hg
  let l1 := srt TT.s l
  let r1 := pass false false get (l1.map TT.s) ⟨[], noId, next, []⟩
  let l2 := srt TT.p (List.zipWith (fun t n => { t with ns := n }) l1 r1.1)
  have e1 : r1.1 = l1.map fun x => (get x.s).getD noId := by
    obtain ⟨a, b⟩ := hcol TT.s l1 ((hs.perm _ _).map _) (fun t h => by simp only [terms, List.mem_append]; exact .inl (.inl h)) h1
    have := pass_delete (get := get) (useTmp := false) (l1.map TT.s) (a := ⟨[], noId, next, []⟩) a b (.inl rfl)
    rw [List.map_map] at this
    exact this
  have p2 : l2.Perm (l.map fun x => { x with ns := (get x.s).getD noId }) := by
    show (srt TT.p (List.zipWith (fun t n => { t with ns := n }) l1 r1.1)).Perm _
    rw [e1, zip_map]
    exact (hs.perm _ _).trans ((hs.perm _ _).map _)
  let r2 := pass false true get (l2.map TT.p) { r1.2 with support := [] }
  let l3 := srt TT.o (List.zipWith (fun t n => { t with np := n }) l2 r2.1)
  have e2 : r2.1 = l2.map fun x => (get x.p).getD noId := by
    obtain ⟨a, b⟩ := hcol TT.p l2 (by
      have := p2.map TT.p
      rw [List.map_map] at this
      exact this) (fun t h => by simp only [terms, List.mem_append]; exact .inl (.inr h)) h2
    have := pass_delete (get := get) (useTmp := true) (l2.map TT.p) (a := { r1.2 with support := [] }) a b (.inl rfl)
    rw [List.map_map] at this
    exact this
  have p3 : l3.Perm (l.map fun x => { x with ns := (get x.s).getD noId, np := (get x.p).getD noId }) := by
    show (srt TT.o (List.zipWith (fun t n => { t with np := n }) l2 r2.1)).Perm _
    rw [e2, zip_map]
    refine (hs.perm _ _).trans ((p2.map _).trans ?_)
    rw [List.map_map]; exact .refl _
  let r3 := pass false true get (l3.map TT.o) { r2.2 with support := [] }
  have e3 : r3.1 = l3.map fun x => (get x.o).getD noId := by
    obtain ⟨a, b⟩ := hcol TT.o l3 (by
      have := p3.map TT.o
      rw [List.map_map] at this
      exact this) (fun t h => by simp only [terms, List.mem_append]; exact .inr h) h3
    have := pass_delete (get := get) (useTmp := true) (l3.map TT.o) (a := { r2.2 with support := [] }) a b (.inl rfl)
    rw [List.map_map] at this
    exact this
  refine ⟨List.zipWith (fun t n => { t with no := n }) l3 r3.1, rfl, ?_⟩
  rw [e3, zip_map]
  refine (p3.map _).trans ?_
  rw [List.map_map]; exact .refl _

end Trident.Dict
