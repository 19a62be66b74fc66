import Verif.Dict.Mgmt
import Verif.Dict.GudProofs
namespace Trident.Dict
open BTree SPool

/-- The pairs the other way round. -/
def flip (l : List (Text × Nat)) : List (Nat × Text) := l.map fun e => (e.2, e.1)

@[simp] theorem flip_append (a b) : flip (a ++ b) = flip a ++ flip b := by simp [flip]
theorem flip_fst (l) : (flip l).map (·.1) = l.map (·.2) := by simp [flip, Function.comp_def]
theorem mem_flip {l : List (Text × Nat)} {t : Text} {i : Nat} : (i, t) ∈ flip l ↔ (t, i) ∈ l := by
  unfold flip
  constructor
  · intro h
    obtain ⟨x, hx, e⟩ := List.mem_map.1 h
    injection e with e1 e2
    subst e1; subst e2; exact hx
  · intro h; exact List.mem_map.2 ⟨_, h, rfl⟩

/-! ## One dictionary -/

/-- The entries of the tree from ids to positions, for terms added after the texts `b`. -/
def invOf (B : Nat) : List Text → List (Text × Nat) → List (Int × Nat)
  | _, [] => []
  | b, e :: es => ((e.2 : Int), posOf B b) :: invOf B (b ++ [e.1]) es

/-- The dictionary with the given terms. -/
def Dic.of (P : Par) (es : List (Text × Nat)) : Dic := ⟨es, invOf P.B [] es, es.map (·.1)⟩

theorem invOf_append (B : Nat) : ∀ (es : List (Text × Nat)) (b : List Text) (e : Text × Nat),
    invOf B b (es ++ [e]) = invOf B b es ++ [((e.2 : Int), posOf B (b ++ es.map (·.1)))]
  | [], b, e => by simp [invOf]
  | x :: es, b, e => by
    rw [List.cons_append, invOf, invOf_append B es, invOf, List.cons_append, List.append_assoc]
    simp

theorem Dic.of_append {P : Par} (es : List (Text × Nat)) (t : Text) (id : Nat) : (Dic.of P es).append P t id = Dic.of P (es ++ [(t, id)]) := by
  unfold Dic.of Dic.append
  simp only [invOf_append, List.nil_append, List.map_append, List.map_cons, List.map_nil]

theorem Dic.of_put {P : Par} {es : List (Text × Nat)} {t : Text} {id : Nat} (h : t ∉ es.map (·.1)) : (Dic.of P es).put P t id = Dic.of P (es ++ [(t, id)]) := by
  unfold Dic.put
  have : (Dic.of P es).ids.lookup t = none := lookup_none.2 h
  rw [this]
  exact Dic.of_append es t id

theorem Dic.puts_of {P : Par} : ∀ (l es : List (Text × Nat)), ((es ++ l).map (·.1)).Nodup →
    l.foldl (fun d e => d.put P e.1 e.2) (Dic.of P es) = Dic.of P (es ++ l)
  | [], es, _ => by simp
  | e :: l, es, h => by
    rw [List.foldl_cons, Dic.of_put, Dic.puts_of l _ (by simpa using h)]
    · simp
    · rw [List.map_append, List.nodup_append] at h
      intro hm
      exact h.2.2 _ hm e.1 (by simp) rfl

/-- What the code supports: strings that fit into a block of the pool, a pool that does not end at the end of a block (C35, C37). -/
structure FitsPool (P : Par) (ss : List Text) : Prop where
  pool : Limits P.B ss
  rest : ss ≠ [] → (added P.B ss).total % P.B ≠ 0

theorem inv_last (B : Nat) : ∀ (es : List (Text × Nat)) (b : List Text) (id : Nat), (es.map (·.2)).Nodup →
    (∀ t pre post, es = pre ++ (t, id) :: post → lastPut (invOf B b es) (id : Int) = some (posOf B (b ++ pre.map (·.1)))) ∧
    (id ∉ es.map (·.2) → lastPut (invOf B b es) (id : Int) = none)
  | [], b, id, _ => by
    refine ⟨?_, fun _ => rfl⟩
    intro t pre post h
    simp at h
  | e :: es, b, id, hn => by
    rw [List.map_cons, List.nodup_cons] at hn
    obtain ⟨i1, i2⟩ := inv_last B es (b ++ [e.1]) id hn.2
    have hl : ∀ (x : Int × Nat) (l : List (Int × Nat)), lastPut (x :: l) (id : Int) = (lastPut l (id : Int)).elim (if x.1 = id then some x.2 else none) some := by
      intro x l
      unfold lastPut
      rw [List.filter_cons]
      by_cases hx : x.1 = (id : Int)
      · simp only [hx, decide_true, if_true, List.getLast?_cons]
        cases (List.filter (fun o => decide (o.1 = (id : Int))) l).getLast? <;> rfl
      · simp only [hx, decide_false, Bool.false_eq_true, if_false]
        cases (List.filter (fun o => decide (o.1 = (id : Int))) l).getLast? <;> rfl
    rw [invOf, hl]
    refine ⟨?_, ?_⟩
    · intro t pre post h
      cases pre with
      | nil =>
        simp only [List.nil_append, List.cons.injEq] at h
        obtain ⟨h1, h2⟩ := h
        rw [i2 (by rw [h1] at hn; exact hn.1), h1]
        simp
      | cons x pre =>
        simp only [List.cons_append, List.cons.injEq] at h
        obtain ⟨h1, h2⟩ := h
        rw [i1 t pre post h2, ← h1]
        simp
    · intro h
      rw [List.map_cons, List.mem_cons] at h
      rw [i2 (fun x => h (.inr x))]
      simp only [Option.elim]
      rw [if_neg]
      intro e'
      exact h (.inl (by omega))

theorem invOf_keys (B : Nat) : ∀ (es : List (Text × Nat)) (b : List Text), (invOf B b es).map (·.1) = es.map fun e => (e.2 : Int)
  | [], _ => rfl
  | e :: es, b => by simp [invOf, invOf_keys B es]

theorem inv_nonneg {P : Par} {es : List (Text × Nat)} : ∀ o ∈ (Dic.of P es).inv, (0 : Int) ≤ o.1 := by
  intro o ho
  have : o.1 ∈ (invOf P.B [] es).map (·.1) := List.mem_map.2 ⟨o, ho, rfl⟩
  rw [invOf_keys] at this
  obtain ⟨e, -, h⟩ := List.mem_map.1 this
  omega

/-- Reading the text of an id. -/
theorem Dic.text_of {P : Par} (hm : 0 < P.m) {es : List (Text × Nat)} (hf : FitsPool P (es.map (·.1))) (hn : (es.map (·.2)).Nodup) (id : Nat) :
    (Dic.of P es).text P id = some ((flip es).lookup id) := by
  unfold Dic.text Dic.tree
  rw [C30_map_partial P.m hm _ inv_nonneg]
  obtain ⟨i1, i2⟩ := inv_last P.B es [] id hn
  by_cases h : id ∈ es.map (·.2)
  · obtain ⟨e, he, rfl⟩ := List.mem_map.1 h
    obtain ⟨pre, post, hs⟩ := List.append_of_mem he
    have hl : (flip es).lookup e.2 = some e.1 := lookup_of_mem (by rw [flip_fst]; exact hn) (mem_flip.2 he)
    have h1 := i1 e.1 pre post hs
    show (lastPut (invOf P.B [] es) (e.2 : Int)).elim _ _ = _
    rw [h1, hl]
    have hp := hf.pool
    have hr := hf.rest (by rw [hs]; simp)
    show ((((added P.B (es.map (·.1))).close P.B).view P.B P.junk).get P.B P.junk (posOf P.B ([] ++ pre.map (·.1)))).map some = _
    have em : es.map (·.1) = pre.map (·.1) ++ e.1 :: post.map (·.1) := by rw [hs]; simp
    rw [em] at hp hr ⊢
    rw [List.nil_append, (C37_reopen_partial P.junk hp hr).1]
    rfl
  · have h1 := i2 h
    show (lastPut (invOf P.B [] es) (id : Int)).elim _ _ = _
    rw [h1]
    have : (flip es).lookup id = none := by rw [lookup_none, flip_fst]; exact h
    rw [this]; rfl

/-- What the tree from ids to positions holds, in the order of the iterator. -/
theorem Dic.iterates {P : Par} (hm : 0 < P.m) {es : List (Text × Nat)} (hn : (es.map (·.2)).Nodup) :
    ∃ l : List (Int × Nat), Yields ((Dic.of P es).tree P).tree.itr ((Dic.of P es).tree P).itr (l.map fun e => (e.1, some e.2)) ∧
      (l.Pairwise fun a b => a.1 < b.1) ∧ (∀ e ∈ l, ∃ t pre post, es = pre ++ (t, e.1.toNat) :: post ∧ e.1 = (e.1.toNat : Int) ∧ e.2 = posOf P.B (pre.map (·.1))) ∧
      (∀ x ∈ es, ∃ e ∈ l, e.1 = (x.2 : Int)) := by
  obtain ⟨l, a, b, c⟩ := C31_iteration_partial P.m hm (Dic.of P es).inv inv_nonneg
  have hl : (Dic.of P es).inv = invOf P.B [] es := rfl
  refine ⟨l, a, b, ?_, ?_⟩
  · intro e he
    have h1 := (c e.1 e.2).1 he
    have h0 : 0 ≤ e.1 := by
      unfold lastPut at h1
      rw [Option.map_eq_some_iff] at h1
      obtain ⟨o, ho, -⟩ := h1
      have := List.mem_of_getLast? ho
      rw [List.mem_filter] at this
      have h2 := inv_nonneg o this.1
      have h3 : o.1 = e.1 := by simpa using this.2
      omega
    have e0 : e.1 = (e.1.toNat : Int) := by omega
    rw [e0, hl] at h1
    obtain ⟨i1, i2⟩ := inv_last P.B es [] e.1.toNat hn
    by_cases h : e.1.toNat ∈ es.map (·.2)
    · obtain ⟨x, hx, hxe⟩ := List.mem_map.1 h
      obtain ⟨pre, post, hs⟩ := List.append_of_mem hx
      have hs' : es = pre ++ (x.1, e.1.toNat) :: post := by rw [hs, ← hxe]
      refine ⟨x.1, pre, post, hs', e0, ?_⟩
      rw [i1 x.1 pre post hs'] at h1
      simpa using h1.symm
    · rw [i2 h] at h1
      simp at h1
  · intro x hx
    obtain ⟨pre, post, hs⟩ := List.append_of_mem hx
    obtain ⟨i1, -⟩ := inv_last P.B es [] x.2 hn
    exact ⟨_, (c _ _).2 (by rw [hl]; exact i1 x.1 pre post hs), rfl⟩

/-- The first id. -/
theorem Dic.first_of {P : Par} (hm : 0 < P.m) {es : List (Text × Nat)} (hn : (es.map (·.2)).Nodup) (hne : es ≠ []) :
    ∃ lo, (Dic.of P es).first P = some lo ∧ lo ∈ es.map (·.2) ∧ ∀ x ∈ es, lo ≤ x.2 := by
  obtain ⟨l, a, b, c, d⟩ := Dic.iterates hm hn
  cases l with
  | nil =>
    cases es with
    | nil => exact absurd rfl hne
    | cons x es =>
      obtain ⟨e, he, -⟩ := d x (by simp)
      simp at he
  | cons e l =>
    rw [List.map_cons, yields_cons] at a
    obtain ⟨a1, a2, -⟩ := a
    refine ⟨e.1.toNat, ?_, ?_, ?_⟩
    · unfold Dic.first
      simp only [a1, if_true, a2]
    · obtain ⟨t, pre, post, hs, -⟩ := c e (by simp)
      rw [hs]; simp
    · intro x hx
      obtain ⟨e', he', h⟩ := d x hx
      rw [List.pairwise_cons] at b
      rcases List.mem_cons.1 he' with h2 | h2
      · subst h2; omega
      · have := b.1 e' h2; omega

/-! ## All dictionaries -/

/-- What is on disk, written as lists of terms. -/
structure Content where
  base : List (Text × Nat)
  baseNext : Nat
  upds : List (List (Text × Nat) × Nat)
  gud : List (Text × Nat)
  largest : Nat

/-- The terms in the dictionaries, and all terms. -/
def Content.dicts (C : Content) : List (List (Text × Nat)) := C.base :: C.upds.map (·.1)
def Content.all (C : Content) : List (Text × Nat) := C.dicts.flatten ++ C.gud
def Content.next (C : Content) : Nat := max (C.upds.foldl (fun n u => max n u.2) C.baseNext) (C.largest + 1)

structure Holds (P : Par) (D : Disk) (C : Content) : Prop where
  base : D.base = Dic.of P C.base
  baseNext : D.baseNext = C.baseNext
  upds : D.upds = C.upds.map fun u => (Dic.of P u.1, u.2)
  gud : D.gud.elim (some {}) readGud = some ⟨flip C.gud, C.gud, C.largest⟩
  texts : (C.all.map (·.1)).Nodup
  ids : (C.all.map (·.2)).Nodup
  rising : C.dicts.Pairwise fun a b => ∀ x ∈ a, ∀ y ∈ b, x.2 < y.2
  filled : ∀ u ∈ C.upds, u.1 ≠ []
  fits : ∀ es ∈ C.dicts, FitsPool P (es.map (·.1))
  small : ∀ x ∈ C.base, x.2 < C.baseNext
  small' : ∀ u ∈ C.upds, ∀ x ∈ u.1, x.2 < u.2
  smallGud : ∀ x ∈ C.gud, x.2 ≤ C.largest
  plain : ∀ x ∈ C.gud, Plain x.1

theorem nodup_sub {α : Type} {f : (Text × Nat) → α} {C : Content} (h : (C.all.map f).Nodup) : ∀ es ∈ C.dicts, (es.map f).Nodup := by
  intro es hes
  unfold Content.all at h
  rw [List.map_append, List.nodup_append, List.map_flatten] at h
  exact (List.pairwise_flatten.1 h.1).1 _ (List.mem_map.2 ⟨es, hes, rfl⟩)

theorem foldl_max {α : Type} (f : α → Nat) : ∀ (l : List α) (n : Nat), n ≤ l.foldl (fun n u => max n (f u)) n ∧ ∀ u ∈ l, f u ≤ l.foldl (fun n u => max n (f u)) n
  | [], n => by simp
  | x :: l, n => by
    obtain ⟨a, b⟩ := foldl_max f l (max n (f x))
    rw [List.foldl_cons]
    refine ⟨by omega, fun u hu => ?_⟩
    rcases List.mem_cons.1 hu with rfl | hu
    · omega
    · exact b u hu

theorem next_gt {P : Par} {D : Disk} {C : Content} (h : Holds P D C) : ∀ x ∈ C.all, x.2 < C.next := by
  intro x hx
  unfold Content.all Content.dicts at hx
  obtain ⟨a, b⟩ := foldl_max (·.2) C.upds C.baseNext
  unfold Content.next
  rw [List.mem_append, List.flatten_cons, List.mem_append] at hx
  rcases hx with (hx | hx) | hx
  · have := h.small x hx; omega
  · obtain ⟨es, hes, hx⟩ := List.mem_flatten.1 hx
    obtain ⟨u, hu, rfl⟩ := List.mem_map.1 hes
    have h1 := h.small' u hu x hx
    have h2 := b u hu
    omega
  · have := h.smallGud x hx; omega

/-- The dictionaries of the updates in memory, aligned with their terms. -/
inductive Aligned (P : Par) : List (Nat × Dic) → List (List (Text × Nat)) → Prop
  | nil : Aligned P [] []
  | cons {lo es l ess} : (∀ x ∈ es, lo ≤ x.2) → lo ∈ es.map (·.2) → Aligned P l ess → Aligned P ((lo, Dic.of P es) :: l) (es :: ess)

theorem starts_aligned {P : Par} (hm : 0 < P.m) : ∀ (us : List (List (Text × Nat) × Nat)), (∀ u ∈ us, u.1 ≠ [] ∧ (u.1.map (·.2)).Nodup) →
    ∃ l, starts P (us.map fun u => (Dic.of P u.1, u.2)) = some l ∧ Aligned P l (us.map (·.1))
  | [], _ => ⟨[], rfl, .nil⟩
  | u :: us, h => by
    obtain ⟨l, a, b⟩ := starts_aligned hm us (fun x hx => h x (by simp [hx]))
    obtain ⟨lo, e1, e2, e3⟩ := Dic.first_of (P := P) hm (h u (by simp)).2 (h u (by simp)).1
    refine ⟨(lo, Dic.of P u.1) :: l, ?_, .cons e3 e2 b⟩
    rw [List.map_cons, starts]
    simp only [e1, a, Option.bind_some, Option.map_some]

/-- The right dictionary is searched. -/
theorem pick_of {P : Par} {l : List (Nat × Dic)} {ess : List (List (Text × Nat))} (id : Nat) (h : Aligned P l ess) :
    ∀ (lo0 : Nat) (es0 : List (Text × Nat)), ((es0 :: ess).Pairwise fun a b => ∀ x ∈ a, ∀ y ∈ b, x.2 < y.2) →
    ∃ es ∈ es0 :: ess, pickDict ((lo0, Dic.of P es0) :: l) id = Dic.of P es ∧ ∀ x ∈ (es0 :: ess).flatten, x.2 = id → x ∈ es := by
  induction h with
  | nil => exact fun lo0 es0 _ => ⟨es0, by simp, rfl, fun x hx _ => by simpa using hx⟩
  | @cons lo es l ess h1 h2 _ ih =>
    intro lo0 es0 hr
    rw [pickDict]
    rw [List.pairwise_cons] at hr
    obtain ⟨y, hy, hyl⟩ := List.mem_map.1 h2
    by_cases hc : lo ≤ id
    · rw [if_pos hc]
      obtain ⟨es', a, b, c⟩ := ih lo es hr.2
      refine ⟨es', List.mem_cons_of_mem _ a, b, ?_⟩
      intro x hx hid
      rw [List.flatten_cons, List.mem_append] at hx
      rcases hx with hx | hx
      · have := hr.1 es (by simp) x hx y hy
        omega
      · exact c x hx hid
    · rw [if_neg hc]
      refine ⟨es0, by simp, rfl, ?_⟩
      intro x hx hid
      rw [List.flatten_cons, List.mem_append] at hx
      rcases hx with hx | hx
      · exact hx
      · exfalso
        rw [List.flatten_cons, List.mem_append] at hx
        rcases hx with hx | hx
        · have := h1 x hx; omega
        · obtain ⟨z, hz, hx⟩ := List.mem_flatten.1 hx
          have h3 := hr.2
          rw [List.pairwise_cons] at h3
          have := h3.1 z hz y hy x hx
          omega

theorem find_of {P : Par} {l : List (Nat × Dic)} {ess : List (List (Text × Nat))} (h : Aligned P l ess) (t : Text) :
    (l.findSome? fun d => d.2.ids.lookup t) = ess.flatten.lookup t := by
  induction h with
  | nil => rfl
  | @cons lo es l ess _ _ _ ih =>
    rw [List.findSome?_cons, ih, List.flatten_cons]
    have e : (lo, Dic.of P es).2.ids.lookup t = es.lookup t := rfl
    rw [e]
    cases h : es.lookup t with
    | some v => exact (lookup_append_left h).symm
    | none => exact (lookup_append_right h).symm

/-- What an opened dictionary answers. -/
theorem open_spec {P : Par} (hm : 0 < P.m) {D : Disk} {C : Content} (h : Holds P D C) :
    ∃ M, openMgr P D = some M ∧ M.next = C.next ∧ M.gud = ⟨flip C.gud, C.gud, C.largest⟩ ∧ (∀ t, M.getNumber t = C.all.lookup t) ∧
      ∀ id, M.getText P id = some ((flip C.all).lookup id) := by
  have hd := nodup_sub h.ids
  obtain ⟨l, a, b⟩ := starts_aligned (P := P) hm C.upds (fun u hu => ⟨h.filled u hu, hd u.1 (by
    unfold Content.dicts
    exact List.mem_cons_of_mem _ (List.mem_map.2 ⟨u, hu, rfl⟩))⟩)
  refine ⟨⟨(0, D.base) :: l, ⟨flip C.gud, C.gud, C.largest⟩, C.next⟩, ?_, rfl, rfl, ?_, ?_⟩
  · unfold openMgr
    rw [h.gud, h.upds, a, Option.bind_some, Option.map_some, h.baseNext]
    unfold Content.next
    rw [List.foldl_map]
  · intro t
    unfold Mgr.getNumber
    simp only [List.findSome?_cons, h.base]
    rw [find_of b]
    unfold Content.all Content.dicts
    rw [List.flatten_cons]
    have e : (Dic.of P C.base).ids.lookup t = C.base.lookup t := rfl
    rw [e]
    cases h1 : C.base.lookup t with
    | some v => rw [List.append_assoc, lookup_append_left h1]; rfl
    | none =>
      rw [List.append_assoc, lookup_append_right h1]
      cases h2 : (C.upds.map (·.1)).flatten.lookup t with
      | some v => rw [lookup_append_left h2]; rfl
      | none => rw [lookup_append_right h2]; rfl
  · intro id
    unfold Mgr.getText
    simp only [h.base]
    obtain ⟨es, p1, p2, p3⟩ := pick_of id b 0 C.base h.rising
    rw [p2, Dic.text_of hm (h.fits es p1) (hd es p1), Option.bind_some]
    have hall : ∀ x ∈ es, x ∈ C.all := fun x hx => List.mem_append_left _ (List.mem_flatten.2 ⟨es, p1, hx⟩)
    cases h1 : (flip es).lookup id with
    | some t =>
      have := mem_flip.1 (lookup_mem h1)
      rw [lookup_of_mem (by rw [flip_fst]; exact h.ids) (mem_flip.2 (hall _ this))]
      rfl
    | none =>
      unfold Content.all
      rw [flip_append, lookup_append_right]
      · rfl
      · rw [lookup_none, flip_fst]
        intro hm'
        obtain ⟨x, hx, e⟩ := List.mem_map.1 hm'
        have := p3 x hx e
        rw [lookup_none, flip_fst] at h1
        exact h1 (List.mem_map.2 ⟨x, this, e⟩)

end Trident.Dict
