import Verif.Tree.CodecProofs
import Verif.Tree.ItrProofs
/-! Helper proofs that join the parts of the tree (no property statements here). -/
namespace Trident.BTree

variable {β γ : Type}

/-- The keys of the node at a path (a leaf or an inner node). -/
def Tree.keysAt : {d : Nat} → Tree β d → List Nat → Option Keys
  | 0, l, [] => some (Leaf.keys l)
  | 0, _, _ :: _ => none
  | _ + 1, n, [] => some (Inner.keys n)
  | _ + 1, n, p :: ps => match (Inner.ch n)[p]? with
    | some c => Tree.keysAt c ps
    | none => none

/-- What the serialisation needs to know of the keys of a node. -/
structure NodeOk (k : Keys) (max : Nat) (lo hi : Int) : Prop where
  wf : k.Wf
  sorted : k.list.Pairwise (· < ·)
  size : k.size ≤ max
  bounds : ∀ x ∈ k.list, lo < x ∧ x ≤ hi

theorem chain_child {d : Nat} {t : Tree β (d + 1)} {max : Nat} {lo hi : Int} (h : t.Inv max lo hi) {p : Nat} {c : Tree β d} (hc : (Inner.ch t)[p]? = some c) :
    ∃ lo' hi', c.Inv max lo' hi' ∧ lo ≤ lo' ∧ hi' ≤ hi := by
  obtain ⟨h1, h2, h3, h4, h5⟩ := h
  have hp : p ≤ (Inner.keys t).list.length := by
    have := chain_length h5
    have := (List.getElem?_eq_some_iff.1 hc).1
    omega
  obtain ⟨c', lo', hi', pre, post, F⟩ := chain_focus Tree.entries (fun c lo hi h => Tree.Inv.bounds h) h5 hp
  have := F.get
  rw [hc] at this
  cases this
  have hb := (chain_seps (fun c lo hi h => (Tree.Inv.bounds h).1) h5).2.2
  refine ⟨lo', hi', F.ok, ?_, ?_⟩
  · rw [F.lower]
    cases hl : ((Inner.keys t).list.take p).getLast? with
    | none => simp
    | some x =>
      have := hb x (List.mem_of_mem_take (List.mem_of_mem_getLast? hl))
      simp; omega
  · rw [F.upper]
    cases hl : ((Inner.keys t).list.drop p).head? with
    | none => simp
    | some x =>
      have := hb x (List.mem_of_mem_drop (List.mem_of_mem_head? hl))
      simp; omega

theorem keysAt_ok {d : Nat} {t : Tree β d} {max : Nat} {lo hi : Int} (h : t.Inv max lo hi) {path : List Nat} {k : Keys} (hk : t.keysAt path = some k) : NodeOk k max lo hi := by
  induction d generalizing lo hi path with
  | zero =>
    cases path with
    | nil =>
      have hk := Option.some.inj hk
      subst hk
      exact ⟨h.1.wf, h.1.sorted, h.2.2, h.1.bounds⟩
    | cons _ _ => simp [Tree.keysAt] at hk
  | succ d ih =>
    cases path with
    | nil =>
      have hk := Option.some.inj hk
      subst hk
      obtain ⟨h1, h2, h3, h4, h5⟩ := h
      exact ⟨h1, h4, h3, fun x hx => by have := (chain_seps (fun c lo hi h => (Tree.Inv.bounds h).1) h5).2.2 x hx; omega⟩
    | cons p ps =>
      have hk : (match (Inner.ch t)[p]? with | some c => Tree.keysAt c ps | none => none) = some k := hk
      cases hc : (Inner.ch t)[p]? with
      | none => rw [hc] at hk; simp at hk
      | some c =>
        rw [hc] at hk
        obtain ⟨lo', hi', hI, b1, b2⟩ := chain_child h hc
        obtain ⟨o1, o2, o3, o4⟩ := ih hI hk
        exact ⟨o1, o2, o3, fun x hx => by have := o4 x hx; omega⟩

theorem leafAt_ok {d : Nat} {t : Tree β d} {max : Nat} {lo hi : Int} (h : t.Inv max lo hi) {path : List Nat} {l : Leaf β} (hl : t.leafAt path = some l) :
    LeafOk l lo hi ∧ l.keys.size ≤ max ∧ ∀ e ∈ l.entries, e ∈ t.entries := by
  induction d generalizing lo hi path with
  | zero =>
    have hl := Option.some.inj hl
    subst hl
    exact ⟨h.1, h.2.2, fun e he => he⟩
  | succ d ih =>
    cases path with
    | nil => simp [Tree.leafAt] at hl
    | cons p ps =>
      have hl : (match (Inner.ch t)[p]? with | some c => Tree.leafAt c ps | none => none) = some l := hl
      cases hc : (Inner.ch t)[p]? with
      | none => rw [hc] at hl; simp at hl
      | some c =>
        rw [hc] at hl
        obtain ⟨lo', hi', hI, b1, b2⟩ := chain_child h hc
        obtain ⟨⟨o1, o2, o3, o4⟩, o5, o6⟩ := ih hI hl
        refine ⟨⟨o1, o2, o3, fun x hx => by have := o4 x hx; omega⟩, o5, fun e he => ?_⟩
        show e ∈ (Inner.ch t).flatMap Tree.entries
        exact List.mem_flatMap.2 ⟨c, List.mem_of_getElem? hc, o6 e he⟩

/-- Bounds for the keys of all nodes. -/
theorem Root.Holds.bounds {m : Nat} {r : Root β} {es} (h : r.Holds m es) {M : Int} (hM : ∀ e ∈ es, e.1 ≤ M) :
    (∃ l : Leaf β, r = ⟨0, l⟩ ∧ l.keys = Keys.empty ∧ l.vals = []) ∨ ∃ lo, -1 ≤ lo ∧ r.tree.Inv (2 * m) lo M := by
  obtain ⟨rfl, h | ⟨lo, hi, hlo, h⟩⟩ := h
  · exact .inl h
  · obtain ⟨e, he, e'⟩ := largest_mem h
    have := hM e he
    exact .inr ⟨lo, hlo, h.hi (by omega)⟩

theorem Root.Holds.keysAt {m : Nat} {r : Root β} {es} (h : r.Holds m es) {M : Int} (hM : ∀ e ∈ es, e.1 ≤ M) {path : List Nat} {k : Keys} (hk : r.tree.keysAt path = some k) :
    NodeOk k (2 * m) (-1) M := by
  rcases h.bounds hM with ⟨l, rfl, e1, e2⟩ | ⟨lo, hlo, hI⟩
  · cases path with
    | nil =>
      have hk : some l.keys = some k := hk
      have hk := Option.some.inj hk
      rw [e1] at hk
      subst hk
      exact ⟨Keys.empty_wf, by simp [Keys.empty_list], Nat.zero_le _, by simp [Keys.empty_list]⟩
    | cons _ _ => simp [Tree.keysAt] at hk
  · obtain ⟨o1, o2, o3, o4⟩ := keysAt_ok hI hk
    exact ⟨o1, o2, o3, fun x hx => by have := o4 x hx; omega⟩

theorem Root.Holds.leafAt {m : Nat} {r : Root β} {es} (h : r.Holds m es) {M : Int} (hM : ∀ e ∈ es, e.1 ≤ M) {path : List Nat} {l : Leaf β} (hl : r.tree.leafAt path = some l) :
    LeafOk l (-1) M ∧ l.keys.size ≤ 2 * m ∧ ∀ e ∈ l.entries, e ∈ es := by
  rcases h.bounds hM with ⟨l', rfl, e1, e2⟩ | ⟨lo, hlo, hI⟩
  · have hl : some l' = some l := by
      cases path <;> exact hl
    have hl := Option.some.inj hl
    subst hl
    refine ⟨empty_leafOk l' e1 e2 _ _, by rw [e1]; exact Nat.zero_le _, fun e he => ?_⟩
    unfold Leaf.entries at he
    rw [e2] at he
    simp at he
  · obtain ⟨⟨o1, o2, o3, o4⟩, o5, o6⟩ := leafAt_ok hI hl
    exact ⟨⟨o1, o2, o3, fun x hx => by have := o4 x hx; omega⟩, o5, fun e he => by rw [← h.1]; exact o6 e he⟩

/-! ## Histories -/

variable {new : γ → β} {upd : β → γ → β}

theorem puts_holds {m : Nat} (hm : 0 < m) (ops : List (Int × γ)) (hk : ∀ o ∈ ops, 0 ≤ o.1) {r : Root β} {es} (h : r.Holds m es) :
    ∃ es', (ops.foldl (fun r o => r.put new upd (2 * m) o.1 o.2) r).Holds m es' ∧
      (∀ e ∈ es', e ∈ es ∨ ∃ o ∈ ops, o.1 = e.1) ∧
      ∀ key, find key es' = ops.foldl (fun acc o => if o.1 = key then some (acc.elim (new o.2) fun b => upd b o.2) else acc) (find key es) := by
  induction ops generalizing r es with
  | nil => exact ⟨es, h, fun e he => .inl he, fun _ => rfl⟩
  | cons o ops ih =>
    have h' := Root.put_spec (new := new) (upd := upd) hm h (hk o (by simp)) o.2
    obtain ⟨es', a, b, c⟩ := ih (fun x hx => hk x (by simp [hx])) h'
    refine ⟨es', a, fun e he => ?_, fun key => ?_⟩
    · rcases b e he with h1 | ⟨x, h1, h2⟩
      · rcases mem_insE h1 with h1 | h1
        · exact .inr ⟨o, by simp, h1.symm⟩
        · exact .inl h1
      · exact .inr ⟨x, by simp [h1], h2⟩
    · rw [c, find_insE h.sorted, List.foldl_cons]
      by_cases hkey : o.1 = key
      · rw [if_pos hkey.symm, if_pos hkey, hkey]
        cases find key es <;> rfl
      · rw [if_neg (fun e => hkey e.symm), if_neg hkey]

theorem puts_all {P : β → Prop} {m : Nat} (hm : 0 < m) (ops : List (Int × γ)) (hk : ∀ o ∈ ops, 0 ≤ o.1) (hP : ∀ o ∈ ops, P (new o.2) ∧ ∀ b, P b → P (upd b o.2))
    {r : Root β} {es} (h : r.Holds m es) (hes : ∀ e ∈ es, P e.2) :
    ∃ es', (ops.foldl (fun r o => r.put new upd (2 * m) o.1 o.2) r).Holds m es' ∧ ∀ e ∈ es', P e.2 := by
  induction ops generalizing r es with
  | nil => exact ⟨es, h, hes⟩
  | cons o ops ih =>
    have h' := Root.put_spec (new := new) (upd := upd) hm h (hk o (by simp)) o.2
    refine ih (fun x hx => hk x (by simp [hx])) (fun x hx => hP x (by simp [hx])) h' ?_
    have := hP o (by simp)
    intro e he
    revert e
    generalize es = l at hes
    clear h h'
    induction l with
    | nil => simp [insE]; exact this.1
    | cons a l ih =>
      intro e he
      unfold insE at he
      split at he
      · rcases List.mem_cons.1 he with rfl | he
        · exact hes _ (by simp)
        · exact ih (fun e' h' => hes e' (by simp [h'])) e he
      · split at he
        · rcases List.mem_cons.1 he with rfl | he
          · exact this.2 _ (hes a (by simp))
          · exact hes e (by simp [he])
        · rcases List.mem_cons.1 he with rfl | he
          · exact this.1
          · exact hes e he

theorem Root.Holds.unique {m : Nat} {r : Root β} {es es'} (h : r.Holds m es) (h' : r.Holds m es') : es = es' := h.1.symm.trans h'.1

theorem mem_iff_find {l : List (Int × β)} (h : l.Pairwise fun a b => a.1 < b.1) (k : Int) (v : β) : (k, v) ∈ l ↔ find k l = some v := by
  unfold find
  induction l with
  | nil => simp
  | cons a l ih =>
    rw [List.pairwise_cons] at h
    rw [List.find?_cons, List.mem_cons]
    by_cases hk : a.1 = k
    · simp only [hk, decide_true, Option.map_some, Option.some.injEq]
      constructor
      · rintro (rfl | h')
        · rfl
        · have := h.1 _ h'
          simp only at this
          omega
      · rintro rfl; left; rw [← hk]
    · simp only [hk, decide_false, ← ih h.2]
      constructor
      · rintro (rfl | h')
        · exact absurd rfl hk
        · exact h'
      · exact .inr

end Trident.BTree
