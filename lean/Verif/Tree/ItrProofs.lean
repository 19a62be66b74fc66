import Verif.Tree.TreePut
/-! Helper proofs for the iteration over the term tree (no property statements here). -/
namespace Trident.BTree

variable {β γ τ : Type}

/-- The entries to the right of a leaf. -/
def Tree.after : {d : Nat} → Tree β d → List Nat → List (Int × β)
  | 0, _, _ => []
  | _ + 1, n, p :: ps => (match (Inner.ch n)[p]? with
    | some c => Tree.after c ps
    | none => []) ++ ((Inner.ch n).drop (p + 1)).flatMap Tree.entries
  | _ + 1, _, [] => []

/-- What the iteration needs to know of the leaf it stands on. -/
def Good (l : Leaf β) : Prop := l.vals.length = l.keys.size ∧ 0 < l.keys.size

theorem leftmost {d : Nat} {t : Tree β d} {max : Nat} {lo hi : Int} (h : t.Inv max lo hi) :
    ∃ l, t.leafAt (List.replicate d 0) = some l ∧ Good l ∧ t.entries = l.entries ++ t.after (List.replicate d 0) := by
  induction d generalizing lo hi with
  | zero => exact ⟨t, rfl, ⟨h.1.len, h.2.1⟩, by simp [Tree.after]; rfl⟩
  | succ d ih =>
    have hc := h.2.2.2.2
    match hs : (Inner.keys t).list, hch : Inner.ch t, hc with
    | ss, c :: cs, hc =>
      have hcI : ∃ a b, c.Inv max a b := by
        cases ss with
        | nil =>
          cases cs with
          | nil => exact ⟨_, _, hc⟩
          | cons _ _ => exact hc.elim
        | cons s ss => exact ⟨_, _, hc.1⟩
      obtain ⟨a, b, hcI⟩ := hcI
      obtain ⟨l, h1, h2, h3⟩ := ih hcI
      refine ⟨l, ?_, h2, ?_⟩
      · show (match (Inner.ch t)[0]? with | some c => Tree.leafAt c (List.replicate d 0) | none => none) = _
        rw [hch]; exact h1
      · show (Inner.ch t).flatMap Tree.entries = l.entries ++ ((match (Inner.ch t)[0]? with | some c => Tree.after c (List.replicate d 0) | none => []) ++ ((Inner.ch t).drop 1).flatMap Tree.entries)
        rw [hch]
        simp [h3]
    | [], [], hc => exact hc.elim
    | _ :: _, [], hc => exact hc.elim

theorem index_unique {l : List Int} {w : Where} {key : Int} (hs : l.Pairwise (· < ·)) (h : w.Spec l key) {p : Nat} (hp : p ≤ l.length)
    (h1 : ∀ x ∈ l.take p, x < key) (h2 : ∀ x ∈ l.drop p, key ≤ x) : w.index = p := by
  obtain ⟨b0, b1, b2⟩ := h.index_bounds hs
  rcases Nat.lt_trichotomy w.index p with hlt | heq | hgt
  · have hlt' : w.index < l.length := by omega
    have a1 := h1 l[w.index] (mem_take_iff.2 ⟨_, hlt, List.getElem?_eq_getElem hlt'⟩)
    have a2 := b2 l[w.index] (mem_drop_iff.2 ⟨_, Nat.le_refl _, List.getElem?_eq_getElem hlt'⟩)
    omega
  · exact heq
  · have hlt' : p < l.length := by omega
    have a1 := b1 l[p] (mem_take_iff.2 ⟨_, hgt, List.getElem?_eq_getElem hlt'⟩)
    have a2 := h2 l[p] (mem_drop_iff.2 ⟨_, Nat.le_refl _, List.getElem?_eq_getElem hlt'⟩)
    omega

theorem le_getLast {l : List Int} (hs : l.Pairwise (· < ·)) {x y : Int} (hx : x ∈ l) (hy : l.getLast? = some y) : x ≤ y := by
  rw [List.getLast?_eq_getElem?] at hy
  obtain ⟨hl, rfl⟩ := List.getElem?_eq_some_iff.1 hy
  obtain ⟨i, hi, rfl⟩ := List.mem_iff_getElem.1 hx
  by_cases he : i = l.length - 1
  · subst he; omega
  · have := List.pairwise_iff_getElem.1 hs i (l.length - 1) hi hl (by omega)
    omega

theorem head_le {l : List Int} (hs : l.Pairwise (· < ·)) {x y : Int} (hx : x ∈ l) (hy : l.head? = some y) : y ≤ x := by
  cases l with
  | nil => simp at hx
  | cons a l =>
    simp only [List.head?_cons, Option.some.injEq] at hy
    subst hy
    rcases List.mem_cons.1 hx with rfl | hx
    · omega
    · have := (List.pairwise_cons.1 hs).1 x hx
      omega

theorem posChild_eq {d : Nat} {t : Tree β (d + 1)} {max : Nat} {lo hi : Int} (h : t.Inv max lo hi) {p : Nat} {c : Tree β d} (hc : (Inner.ch t)[p]? = some c) :
    posChild (Inner.keys t) p c.smallest = p ∧ p ≤ (Inner.keys t).size ∧ ∃ a b, c.Inv max a b := by
  obtain ⟨h1, h2, h3, h4, h5⟩ := h
  have hp : p ≤ (Inner.keys t).list.length := by
    have := chain_length h5
    have := (List.getElem?_eq_some_iff.1 hc).1
    omega
  obtain ⟨c', lo', hi', pre, post, F⟩ := chain_focus Tree.entries (fun c lo hi h => Tree.Inv.bounds h) h5 hp
  have := F.get
  rw [hc] at this
  cases this
  have e := F.ok.ends.1
  refine ⟨?_, by simpa using hp, _, _, F.ok⟩
  unfold posChild
  by_cases h0 : p = 0
  · simp [h0]
  · rw [if_neg h0, if_pos]
    refine index_unique h4 (Keys.pos_spec h1 h4 _) hp (fun x hx => ?_) (fun x hx => ?_)
    · have hl := F.lower
      cases hg : ((Inner.keys t).list.take p).getLast? with
      | none => rw [List.getLast?_eq_none_iff] at hg; rw [hg] at hx; simp at hx
      | some y =>
        rw [hg] at hl
        have := le_getLast (h4.sublist (List.take_sublist _ _)) hx hg
        simp at hl
        omega
    · have hl := F.upper
      cases hg : ((Inner.keys t).list.drop p).head? with
      | none => rw [List.head?_eq_none_iff] at hg; rw [hg] at hx; simp at hx
      | some y =>
        rw [hg] at hl
        have := head_le (h4.sublist (List.drop_sublist _ _)) hx hg
        simp at hl
        omega

theorem right_spec {d : Nat} {t : Tree β d} {max : Nat} {lo hi : Int} (h : t.Inv max lo hi) {path : List Nat} {l : Leaf β} (hl : t.leafAt path = some l) :
    match t.right path with
    | .up => t.after path = []
    | .stop q => ∃ l', t.leafAt q = some l' ∧ Good l' ∧ t.after path = l'.entries ++ t.after q := by
  induction d generalizing lo hi path l with
  | zero => exact rfl
  | succ d ih =>
    match path, hl with
    | p :: ps, hl =>
      have hl : (match (Inner.ch t)[p]? with | some c => Tree.leafAt c ps | none => none) = some l := hl
      cases hc : (Inner.ch t)[p]? with
      | none => rw [hc] at hl; simp at hl
      | some c =>
        rw [hc] at hl
        obtain ⟨e, hp, a, b, hcI⟩ := posChild_eq h hc
        have I := ih hcI hl
        have hafter : ∀ q, t.after (p :: q) = c.after q ++ ((Inner.ch t).drop (p + 1)).flatMap Tree.entries := by
          intro q
          show (match (Inner.ch t)[p]? with | some c => Tree.after c q | none => []) ++ _ = _
          rw [hc]
        have hleaf : ∀ q, t.leafAt (p :: q) = c.leafAt q := by
          intro q
          show (match (Inner.ch t)[p]? with | some c => Tree.leafAt c q | none => none) = _
          rw [hc]
        have hr : t.right (p :: ps) = match Tree.right c ps with
            | .stop q => .stop (p :: q)
            | .up =>
              if posChild (Inner.keys t) p c.smallest = (Inner.keys t).size then .up
              else .stop ((posChild (Inner.keys t) p c.smallest + 1).toNat :: List.replicate d 0) := by
          show (match (Inner.ch t)[p]? with | none => Climb.up | some c => _) = _
          rw [hc]
          rfl
        rw [hr]
        cases hR : Tree.right c ps with
        | stop q =>
          rw [hR] at I
          obtain ⟨l', i1, i2, i3⟩ := I
          exact ⟨l', by rw [hleaf]; exact i1, i2, by rw [hafter, hafter, i3, List.append_assoc]⟩
        | up =>
          rw [hR] at I
          simp only
          have hlen := chain_length h.2.2.2.2
          rw [Keys.list_length] at hlen
          rw [e]
          by_cases hlast : p = (Inner.keys t).size
          · rw [if_pos (by omega)]
            show Tree.after t (p :: ps) = []
            rw [hafter, List.drop_of_length_le (by omega)]
            simp only at I
            rw [I]; rfl
          · rw [if_neg (by omega)]
            have hlt : p + 1 < (Inner.ch t).length := by omega
            have hc2 : (Inner.ch t)[p + 1]? = some (Inner.ch t)[p + 1] := List.getElem?_eq_getElem hlt
            generalize (Inner.ch t)[p + 1] = c2 at hc2
            obtain ⟨e2, hp2, a2, b2, hcI2⟩ := posChild_eq h hc2
            obtain ⟨l', j1, j2, j3⟩ := leftmost hcI2
            refine ⟨l', ?_, j2, ?_⟩
            · show (match (Inner.ch t)[((p : Int) + 1).toNat]? with | some c => Tree.leafAt c (List.replicate d 0) | none => none) = _
              rw [show ((p : Int) + 1).toNat = p + 1 by omega, hc2]
              exact j1
            · rw [hafter]
              simp only at I
              rw [I]
              show _ = l'.entries ++ ((match (Inner.ch t)[((p : Int) + 1).toNat]? with | some c => Tree.after c (List.replicate d 0) | none => []) ++ ((Inner.ch t).drop (((p : Int) + 1).toNat + 1)).flatMap Tree.entries)
              rw [show ((p : Int) + 1).toNat = p + 1 by omega, hc2]
              simp only
              have hd : (Inner.ch t).drop (p + 1) = c2 :: (Inner.ch t).drop (p + 1 + 1) := by
                obtain ⟨_, rfl⟩ := List.getElem?_eq_some_iff.1 hc2
                exact List.drop_eq_getElem_cons hlt
              rw [hd]
              simp [j3]

theorem entries_cons {l : Leaf β} (h : l.vals.length = l.keys.size) {i : Nat} (hi : i < l.keys.size) :
    ∃ v, l.vals[i]? = some v ∧ l.entries.drop i = (l.keys.keyAt i, v) :: l.entries.drop (i + 1) := by
  have hv : i < l.vals.length := by omega
  have hk : i < l.keys.list.length := by simpa using hi
  refine ⟨l.vals[i], List.getElem?_eq_getElem hv, ?_⟩
  have hz : i < l.entries.length := by unfold Leaf.entries; rw [List.length_zip]; omega
  rw [List.drop_eq_getElem_cons hz]
  congr 1
  show (l.keys.list.zip l.vals)[i]'hz = _
  rw [List.getElem_zip (h := hz), Keys.list_getElem]

theorem itr_spec {d : Nat} {t : Tree β d} {max : Nat} {lo hi : Int} (h : t.Inv max lo hi) :
    ∀ (es : List (Int × β)) (path : List Nat) (i : Nat) (l : Leaf β), t.leafAt path = some l → Good l → i ≤ l.keys.size →
      l.entries.drop i ++ t.after path = es → Yields t.itr ⟨path, i⟩ (es.map fun e => (e.1, some e.2)) := by
  -- a state before an entry
  have key : ∀ (es : List (Int × β)), (∀ (es' : List (Int × β)), es'.length < es.length → ∀ (path : List Nat) (i : Nat) (l : Leaf β), t.leafAt path = some l → Good l → i ≤ l.keys.size →
      l.entries.drop i ++ t.after path = es' → Yields t.itr ⟨path, i⟩ (es'.map fun e => (e.1, some e.2))) →
      ∀ (s : TItr) (path : List Nat) (i : Nat) (l : Leaf β), t.itr.hasNext s = (true, ⟨path, i⟩) → t.leafAt path = some l → Good l → i < l.keys.size → l.entries.drop i ++ t.after path = es →
        Yields t.itr s (es.map fun e => (e.1, some e.2)) := by
    intro es ih s path i l hn hl hg hi he
    obtain ⟨v, hv, hd⟩ := entries_cons hg.1 hi
    rw [hd] at he
    subst he
    rw [List.cons_append, List.map_cons, yields_cons, hn]
    refine ⟨rfl, ?_, ?_⟩
    · show (match t.leafAt path with | none => (0, none) | some l => (l.keys.keyAt (i + 1 - 1), l.vals[i + 1 - 1]?)) = _
      rw [hl]
      simp [hv]
    · exact ih _ (by simp) path (i + 1) l hl hg (by omega) rfl
  intro es
  induction hn : es.length using Nat.strongRecOn generalizing es with
  | _ n ih =>
    intro path i l hl hg hi he
    have ih' : ∀ (es' : List (Int × β)), es'.length < es.length → ∀ (path : List Nat) (i : Nat) (l : Leaf β), t.leafAt path = some l → Good l → i ≤ l.keys.size →
        l.entries.drop i ++ t.after path = es' → Yields t.itr ⟨path, i⟩ (es'.map fun e => (e.1, some e.2)) := fun es' hlt => ih es'.length (by omega) es' rfl
    by_cases hlt : i < l.keys.size
    · refine key es ih' _ path i l ?_ hl hg hlt he
      show (match t.leafAt path with | none => _ | some l => _) = _
      rw [hl]
      simp only
      rw [if_neg (by omega)]
    · have R := right_spec h hl
      have hdrop : l.entries.drop i = [] := by
        rw [List.drop_eq_nil_iff]
        unfold Leaf.entries
        rw [List.length_zip, Keys.list_length]
        omega
      rw [hdrop, List.nil_append] at he
      have hnext : t.itr.hasNext ⟨path, i⟩ = match t.right path with | .up => (false, ⟨path, i⟩) | .stop q => (true, ⟨q, 0⟩) := by
        show (match t.leafAt path with | none => _ | some l => _) = _
        rw [hl]
        simp only
        rw [if_pos (by omega)]
        rfl
      cases hR : t.right path with
      | up =>
        rw [hR] at R hnext
        simp only at R
        rw [R] at he
        subst he
        rw [List.map_nil, yields_nil, hnext]
      | stop q =>
        rw [hR] at R hnext
        obtain ⟨l', r1, r2, r3⟩ := R
        exact key es ih' _ q 0 l' hnext r1 r2 r2.2 (by rw [List.drop_zero, ← r3]; exact he)

theorem first_eq {d : Nat} {t : Tree β d} {max : Nat} {lo hi : Int} (h : t.Inv max lo hi) (hlo : -1 ≤ lo) : t.first = List.replicate d 0 := by
  induction d generalizing lo hi with
  | zero => rfl
  | succ d ih =>
    obtain ⟨h1, h2, h3, h4, h5⟩ := h
    have hidx : ((Inner.keys t).pos 0).index = 0 := by
      refine index_unique h4 (Keys.pos_spec h1 h4 0) (Nat.zero_le _) (by simp) (fun x hx => ?_)
      have := (chain_seps (fun c lo hi h => (Tree.Inv.bounds h).1) h5).2.2 x (by simpa using hx)
      omega
    obtain ⟨c, lo', hi', pre, post, F⟩ := chain_focus Tree.entries (fun c lo hi h => Tree.Inv.bounds h) h5 (Nat.zero_le _)
    have hlo' : lo' = lo := by rw [F.lower]; simp
    show ((Inner.keys t).pos 0).index :: (match (Inner.ch t)[((Inner.keys t).pos 0).index]? with | some c => Tree.first c | none => []) = _
    rw [hidx, F.get]
    simp only
    rw [ih F.ok (by omega)]
    rfl

theorem Root.itr_spec {m : Nat} {r : Root β} {es} (h : r.Holds m es) : Yields r.tree.itr r.itr (es.map fun e => (e.1, some e.2)) := by
  obtain ⟨rfl, ⟨l, rfl, e1, e2⟩ | ⟨lo, hi, hlo, h⟩⟩ := h
  · have : Tree.entries (d := 0) l = [] := by
      show l.keys.list.zip l.vals = []
      rw [e1, Keys.empty_list]; rfl
    rw [this, List.map_nil, yields_nil]
    show (match (if 0 ≥ l.keys.size then (false, _) else (true, _)) with | r => r).1 = false
    rw [e1]
    rfl
  · obtain ⟨l, l1, l2, l3⟩ := leftmost h
    have := BTree.itr_spec h r.tree.entries (List.replicate r.depth 0) 0 l l1 l2 (Nat.zero_le _) (by rw [List.drop_zero, l3])
    unfold Root.itr
    rw [first_eq h hlo]
    exact this

end Trident.BTree
