import Verif.Tree.TreeProofs
/-! Helper proofs for insertions into the term tree (no property statements here). -/
namespace Trident.BTree

variable {β γ τ : Type} {new : γ → β} {upd : β → γ → β}

@[simp] theorem insertAt_zero {α} (l : List α) (x : α) : insertAt l 0 x = x :: l := by simp [insertAt]
@[simp] theorem insertAt_succ {α} (l : List α) (a x : α) (p : Nat) : insertAt (a :: l) (p + 1) x = a :: insertAt l p x := by simp [insertAt]

theorem insertAt_take_lt {α} (l : List α) (x : α) {p k : Nat} (h : p ≤ k) (hl : p ≤ l.length) : (insertAt l p x).take (k + 1) = insertAt (l.take k) p x := by
  induction l generalizing p k with
  | nil => simp at hl; subst hl; simp
  | cons a l ih =>
    cases p with
    | zero => simp
    | succ p =>
      obtain ⟨k, rfl⟩ : ∃ j, k = j + 1 := ⟨k - 1, by omega⟩
      simp only [insertAt_succ, List.take_succ_cons]
      rw [ih (by omega) (by simpa using hl)]

theorem insertAt_drop_lt {α} (l : List α) (x : α) {p k : Nat} (h : p ≤ k) (hl : p ≤ l.length) : (insertAt l p x).drop (k + 1) = l.drop k := by
  induction l generalizing p k with
  | nil => simp at hl; subst hl; simp
  | cons a l ih =>
    cases p with
    | zero => simp
    | succ p =>
      obtain ⟨k, rfl⟩ : ∃ j, k = j + 1 := ⟨k - 1, by omega⟩
      simp only [insertAt_succ, List.drop_succ_cons]
      rw [ih (by omega) (by simpa using hl)]

theorem insertAt_take_ge {α} (l : List α) (x : α) {p k : Nat} (h : k ≤ p) (hl : p ≤ l.length) : (insertAt l p x).take k = l.take k := by
  unfold insertAt
  rw [List.take_append_of_le_length (by simp; omega), List.take_take, Nat.min_eq_left h]

theorem insertAt_drop_ge {α} (l : List α) (x : α) {p k : Nat} (h : k ≤ p) (hl : p ≤ l.length) : (insertAt l p x).drop k = insertAt (l.drop k) (p - k) x := by
  unfold insertAt
  rw [List.drop_append_of_le_length (by simp; omega), List.drop_take, List.drop_drop, show k + (p - k) = p by omega]

theorem insertAt_take_self {α} (l : List α) (x : α) {p : Nat} (hl : p ≤ l.length) : (insertAt l p x).take p = l.take p := insertAt_take_ge l x (Nat.le_refl _) hl

/-- A sorted list after an insertion says where the place was. -/
theorem spec_of_sorted {l : List Int} {p : Nat} {x : Int} (hl : p ≤ l.length) (h : (insertAt l p x).Pairwise (· < ·)) : (Where.ins p).Spec l x := by
  unfold insertAt at h
  rw [List.pairwise_append, List.pairwise_cons] at h
  exact ⟨hl, fun a ha => h.2.2 a ha x (by simp), h.2.1.1⟩

theorem chain_seps {P : τ → Int → Int → Prop} (hP : ∀ c lo hi, P c lo hi → lo < hi) {lo hi : Int} {ss : List Int} {cs : List τ} (h : Chain P lo ss cs hi) :
    lo < hi ∧ ss.Pairwise (· < ·) ∧ ∀ x ∈ ss, lo < x ∧ x < hi := by
  induction ss generalizing lo cs with
  | nil =>
    match cs, h with
    | [c], h => exact ⟨hP _ _ _ h, by simp, by simp⟩
  | cons s ss ih =>
    match cs, h with
    | c :: cs, h =>
      have h1 := hP _ _ _ h.1
      obtain ⟨i1, i2, i3⟩ := ih h.2
      refine ⟨by omega, List.pairwise_cons.2 ⟨fun x hx => (i3 x hx).1, i2⟩, fun x hx => ?_⟩
      rcases List.mem_cons.1 hx with rfl | hx
      · exact ⟨h1, i1⟩
      · have := i3 x hx; omega

/-- What an insertion into a tree must do. -/
def PutOk (new : γ → β) (upd : β → γ → β) (max : Nat) {d : Nat} (es : List (Int × β)) (key : Int) (v : γ) (lo hi : Int) : Tree β d × Option (Tree β d) → Prop
  | (t, none) => t.Inv max lo hi ∧ t.entries = insE new upd key v es
  | (a, some b) => ∃ x, a.Inv max lo x ∧ b.Inv max x hi ∧ a.entries ++ b.entries = insE new upd key v es

theorem LeafOk.split {l : Leaf β} {lo hi : Int} (h : LeafOk l lo hi) {m : Nat} (hm : 0 < m) (hn : l.keys.size = 2 * m) :
    ∃ x, l.keys.list[m - 1]? = some x ∧ LeafOk (⟨(l.keys.split (2 * m) m).1, l.vals.take m⟩ : Leaf β) lo x ∧
      LeafOk (⟨(l.keys.split (2 * m) m).2, (l.vals.drop m).take m⟩ : Leaf β) x hi ∧
      (l.keys.split (2 * m) m).1.size = m ∧ (l.keys.split (2 * m) m).2.size = m ∧
      (⟨(l.keys.split (2 * m) m).1, l.vals.take m⟩ : Leaf β).entries ++ (⟨(l.keys.split (2 * m) m).2, (l.vals.drop m).take m⟩ : Leaf β).entries = l.entries := by
  obtain ⟨⟨w1, l1⟩, w2, l2⟩ := Keys.split_spec h.wf h.sorted hm hn
  have s1 : (l.keys.split (2 * m) m).1.size = m := by rw [← Keys.list_length, l1, List.length_take, Keys.list_length]; omega
  have s2 : (l.keys.split (2 * m) m).2.size = m := by rw [← Keys.list_length, l2, List.length_drop, Keys.list_length]; omega
  have hlt : m - 1 < l.keys.list.length := by rw [Keys.list_length]; omega
  have hvl := h.len
  have hfull : (l.vals.drop m).take m = l.vals.drop m := List.take_of_length_le (by rw [List.length_drop]; omega)
  refine ⟨l.keys.list[m - 1], List.getElem?_eq_getElem hlt, ⟨w1, ?_, ?_, ?_⟩, ⟨w2, ?_, ?_, ?_⟩, s1, s2, ?_⟩
  · show (l.vals.take m).length = _
    rw [s1, List.length_take]; omega
  · show (l.keys.split (2 * m) m).1.list.Pairwise _
    rw [l1]; exact h.sorted.sublist (List.take_sublist _ _)
  · intro y hy
    have hy : y ∈ (l.keys.split (2 * m) m).1.list := hy
    rw [l1] at hy
    refine ⟨(h.bounds y (List.mem_of_mem_take hy)).1, ?_⟩
    obtain ⟨i, hi, e⟩ := mem_take_iff.1 hy
    obtain ⟨hi', e⟩ := List.getElem?_eq_some_iff.1 e
    by_cases hl : i = m - 1
    · subst hl; omega
    · have := List.pairwise_iff_getElem.1 h.sorted i (m - 1) hi' hlt (by omega)
      omega
  · show ((l.vals.drop m).take m).length = _
    rw [s2, hfull, List.length_drop]; omega
  · show (l.keys.split (2 * m) m).2.list.Pairwise _
    rw [l2]; exact h.sorted.sublist (List.drop_sublist _ _)
  · intro y hy
    have hy : y ∈ (l.keys.split (2 * m) m).2.list := hy
    rw [l2] at hy
    refine ⟨?_, (h.bounds y (List.mem_of_mem_drop hy)).2⟩
    obtain ⟨i, hi, e⟩ := mem_drop_iff.1 hy
    obtain ⟨hi', e⟩ := List.getElem?_eq_some_iff.1 e
    have := List.pairwise_iff_getElem.1 h.sorted (m - 1) i hlt hi' (by omega)
    omega
  · show (l.keys.split (2 * m) m).1.list.zip (l.vals.take m) ++ (l.keys.split (2 * m) m).2.list.zip ((l.vals.drop m).take m) = l.keys.list.zip l.vals
    rw [l1, l2, hfull, ← List.zip_append (by rw [List.length_take, List.length_take, Keys.list_length, h.len]), List.take_append_drop, List.take_append_drop]

theorem Leaf.put_spec {l : Leaf β} {lo hi key : Int} (h : LeafOk l lo hi) {m : Nat} (hm : 0 < m) (hsz : l.keys.size ≤ 2 * m) (hk : lo < key ∧ key ≤ hi) (v : γ) :
    PutOk (d := 0) new upd (2 * m) l.entries key v lo hi (l.put new upd (2 * m) key v) := by
  have I := Leaf.insert_spec (new := new) (upd := upd) h hk v
  have S := Keys.pos_spec h.wf h.sorted key
  unfold Leaf.put
  rw [show 2 * m / 2 = m by omega]
  cases hp : l.keys.pos key with
  | found p =>
    rw [hp] at I
    obtain ⟨i1, i2, i3, i4⟩ := I
    exact ⟨⟨i1, i3, by rw [i4]; exact hsz⟩, i2⟩
  | ins p =>
    rw [hp] at I S
    obtain ⟨i1, i2, i3, i4⟩ := I
    simp only at i4
    by_cases hfull : l.keys.size = 2 * m
    · simp only
      rw [if_pos hfull]
      obtain ⟨x, hx, A, B, sa, sb, he⟩ := h.split hm hfull
      have he : ((⟨(l.keys.split (2 * m) m).1, l.vals.take m⟩ : Leaf β)).entries ++ ((⟨(l.keys.split (2 * m) m).2, (l.vals.drop m).take m⟩ : Leaf β)).entries = l.entries := he
      by_cases hpm : p < m
      · rw [if_pos hpm]
        have hkx : key < x := S.2.2 x (mem_drop_iff.2 ⟨m - 1, by omega, hx⟩)
        have IA := Leaf.insert_spec (new := new) (upd := upd) A ⟨hk.1, Int.le_of_lt hkx⟩ v
        refine ⟨x, ⟨IA.1, IA.2.2.1, ?_⟩, ⟨B, by rw [sb]; exact hm, by rw [sb]; omega⟩, ?_⟩
        · have := IA.2.2.2
          revert this
          split
          · intro h'; rw [h', sa]; omega
          · intro h'; rw [h', sa]; omega
        · show (Leaf.insert new upd _ key v).entries ++ Leaf.entries _ = _
          rw [IA.2.1, ← he, ← insE_right]
          intro e hmem
          have := B.mem hmem
          omega
      · rw [if_neg hpm]
        have hkx : x < key := S.2.1 x (mem_take_iff.2 ⟨m - 1, by omega, hx⟩)
        have IB := Leaf.insert_spec (new := new) (upd := upd) B ⟨hkx, hk.2⟩ v
        refine ⟨x, ⟨A, by rw [sa]; exact hm, by rw [sa]; omega⟩, ⟨IB.1, IB.2.2.1, ?_⟩, ?_⟩
        · have := IB.2.2.2
          revert this
          split
          · intro h'; rw [h', sb]; omega
          · intro h'; rw [h', sb]; omega
        · show Leaf.entries _ ++ (Leaf.insert new upd _ key v).entries = _
          rw [IB.2.1, ← he, ← insE_left]
          intro e hmem
          have := A.mem hmem
          omega
    · simp only
      rw [if_neg hfull]
      exact ⟨⟨i1, i3, by rw [i4]; omega⟩, i2⟩

theorem avg_between {d : Nat} {a b : Tree β d} {max : Nat} {lo x hi : Int} (ha : a.Inv max lo x) (hb : b.Inv max x hi) (hlo : -1 ≤ lo) :
    a.Inv max lo (avg a b) ∧ b.Inv max (avg a b) hi := by
  have h1 := ha.ends
  have h2 := hb.ends
  have : a.largest ≤ avg a b ∧ avg a b < b.smallest := by
    unfold avg
    rw [Int.tdiv_eq_ediv_of_nonneg (by omega)]
    omega
  exact ⟨ha.hi this.1, hb.lo this.2⟩

theorem updateChildren_spec {d : Nat} {n : Inner (Tree β d)} {lo hi : Int} {m : Nat} (hm : 0 < m) (hw : n.keys.Wf)
    (hsz : n.keys.size ≤ 2 * m) (hs : n.keys.list.Pairwise (· < ·)) {p : Nat} (hp : p ≤ n.keys.list.length) {c c' s : Tree β d} {lo' hi' x : Int} {pre post}
    (F : Focus (fun (c : Tree β d) a b => c.Inv (2 * m) a b) Tree.entries lo n.keys.list n.ch hi p c lo' hi' pre post)
    (hc : c'.Inv (2 * m) lo' x) (hs' : s.Inv (2 * m) x hi') (hlo : -1 ≤ lo') (hlen : n.ch.length = n.keys.list.length + 1) :
    match Inner.updateChildren avg (2 * m) ⟨n.keys, n.ch.set p c'⟩ c' s p with
    | (t, none) => Tree.Inv (d := d + 1) (2 * m) t lo hi ∧ Tree.entries (d := d + 1) t = pre ++ (c'.entries ++ (s.entries ++ post))
    | (a, some b) => ∃ x, Tree.Inv (d := d + 1) (2 * m) a lo x ∧ Tree.Inv (d := d + 1) (2 * m) b x hi ∧
        Tree.entries (d := d + 1) a ++ Tree.entries (d := d + 1) b = pre ++ (c'.entries ++ (s.entries ++ post)) := by
  obtain ⟨hc, hs'⟩ := avg_between hc hs' hlo
  have C := F.insOk _ _ _ hc hs'
  have E := F.ins c' s
  have e0 : (2 * m) / 2 = m := by omega
  unfold Inner.updateChildren
  simp only [e0]
  clear F
  generalize avg c' s = s0 at *
  have hsort := (chain_seps (fun c lo hi h => (Tree.Inv.bounds h).1) C).2.1
  have S := spec_of_sorted hp hsort
  obtain ⟨pw, pl⟩ := Keys.putkeyAt_spec hw S
  have hlen' : (n.ch.set p c').length = n.keys.list.length + 1 := by simpa using hlen
  generalize n.ch.set p c' = cs at *
  by_cases hfull : n.keys.size = 2 * m
  · rw [if_pos hfull]
    have hl : n.keys.list.length = 2 * m := by rw [Keys.list_length]; exact hfull
    obtain ⟨⟨w1, l1⟩, w2, l2⟩ := Keys.split_spec hw hs hm hfull
    -- both halves
    suffices H : ∀ a b : Inner (Tree β d), a.keys.Wf → b.keys.Wf → a.keys.list = (insertAt n.keys.list p s0).take m → b.keys.list = (insertAt n.keys.list p s0).drop (m + 1) →
        a.ch = (insertAt cs (p + 1) s).take (m + 1) → b.ch = (insertAt cs (p + 1) s).drop (m + 1) →
        ∃ x, Tree.Inv (d := d + 1) (2 * m) a lo x ∧ Tree.Inv (d := d + 1) (2 * m) b x hi ∧
          Tree.entries (d := d + 1) a ++ Tree.entries (d := d + 1) b = pre ++ (c'.entries ++ (s.entries ++ post)) by
      by_cases h1 : p < m
      · rw [if_pos h1]
        obtain ⟨rw1, rl1⟩ := Keys.removeLast_spec w1
        have hsz1 : (n.keys.split (2 * m) m).1.size = m := by rw [← Keys.list_length, l1, List.length_take]; omega
        rw [hsz1, l1, List.take_take, Nat.min_eq_left (by omega)] at rl1
        have hins : (insertAt n.keys.list p s0).take m = insertAt (n.keys.list.take (m - 1)) p s0 := by
          have := insertAt_take_lt n.keys.list s0 (p := p) (k := m - 1) (by omega) hp
          rwa [show m - 1 + 1 = m by omega] at this
        have S1 : (Where.ins p).Spec (n.keys.split (2 * m) m).1.removeLast.list s0 := by
          rw [rl1]
          apply spec_of_sorted
          · rw [List.length_take]; omega
          · rw [← hins]; exact hsort.sublist (List.take_sublist _ _)
        obtain ⟨qw, ql⟩ := Keys.putkeyAt_spec rw1 S1
        refine H _ _ qw w2 ?_ ?_ ?_ ?_
        · show Keys.list _ = _
          rw [ql, rl1, hins]
        · show Keys.list _ = _
          rw [l2, insertAt_drop_lt _ _ (by omega) hp]
        · show insertAt (cs.take m) (p + 1) s = _
          rw [insertAt_take_lt _ _ (by omega) (by omega)]
        · show (cs.drop m).take (m + 1) = _
          rw [insertAt_drop_lt _ _ (by omega) (by omega), List.take_of_length_le (by rw [List.length_drop]; omega)]
      · rw [if_neg h1]
        by_cases h2 : p > m
        · rw [if_pos h2]
          obtain ⟨rw2, rl2⟩ := Keys.removeFirst_spec w2
          rw [l2, List.drop_drop] at rl2
          have hins : (insertAt n.keys.list p s0).drop (m + 1) = insertAt (n.keys.list.drop (m + 1)) (p - (m + 1)) s0 := insertAt_drop_ge _ _ (by omega) hp
          have S1 : (Where.ins (p - (m + 1))).Spec (n.keys.split (2 * m) m).2.removeFirst.list s0 := by
            rw [rl2]
            apply spec_of_sorted
            · rw [List.length_drop]; omega
            · rw [← hins]; exact hsort.sublist (List.drop_sublist _ _)
          obtain ⟨qw, ql⟩ := Keys.putkeyAt_spec rw2 S1
          refine H _ _ w1 qw ?_ ?_ ?_ ?_
          · show Keys.list _ = _
            rw [l1, insertAt_take_ge _ _ (by omega) hp]
          · show Keys.list _ = _
            rw [ql, rl2, hins]
          · show cs.take (m + 1) = _
            rw [insertAt_take_ge _ _ (by omega) (by omega)]
          · show insertAt ((cs.drop (m + 1)).take m) (p - (m + 1) + 1) s = _
            rw [insertAt_drop_ge _ _ (by omega) (by omega), List.take_of_length_le (by rw [List.length_drop]; omega), show p + 1 - (m + 1) = p - (m + 1) + 1 by omega]
        · rw [if_neg h2]
          have hpm : p = m := by omega
          refine H _ _ w1 w2 ?_ ?_ ?_ ?_
          · show Keys.list _ = _
            rw [l1, insertAt_take_ge _ _ (by omega) hp]
          · show Keys.list _ = _
            rw [l2, insertAt_drop_lt _ _ (by omega) hp]
          · show cs.take (m + 1) = _
            rw [insertAt_take_ge _ _ (by omega) (by omega)]
          · show s :: (cs.drop (m + 1)).take m = _
            rw [insertAt_drop_ge _ _ (by omega) (by omega), List.take_of_length_le (by rw [List.length_drop]; omega), show p + 1 - (m + 1) = 0 by omega, insertAt_zero]
    intro a b wa wb la lb ca cb
    have hL : (insertAt n.keys.list p s0).length = 2 * m + 1 := by rw [insertAt_length _ _ _ hp, hl]
    have sa : a.keys.size = m := by rw [← Keys.list_length, la, List.length_take]; omega
    have sb : b.keys.size = m := by rw [← Keys.list_length, lb, List.length_drop]; omega
    have hsp := chain_split C (i := m) (by omega)
    refine ⟨(insertAt n.keys.list p s0)[m], ⟨wa, by show 0 < a.keys.size; omega, by show a.keys.size ≤ _; omega, ?_, ?_⟩, ⟨wb, by show 0 < b.keys.size; omega, by show b.keys.size ≤ _; omega, ?_, ?_⟩, ?_⟩
    · show a.keys.list.Pairwise _
      rw [la]; exact hsort.sublist (List.take_sublist _ _)
    · show Chain _ lo a.keys.list a.ch _
      rw [la, ca]; exact hsp.1
    · show b.keys.list.Pairwise _
      rw [lb]; exact hsort.sublist (List.drop_sublist _ _)
    · show Chain _ _ b.keys.list b.ch hi
      rw [lb, cb]; exact hsp.2
    · show a.ch.flatMap Tree.entries ++ b.ch.flatMap Tree.entries = _
      rw [ca, cb, ← List.flatMap_append, List.take_append_drop, E]
  · rw [if_neg hfull]
    have hsz' : (n.keys.putkeyAt s0 p).size = n.keys.size + 1 := by
      rw [← Keys.list_length, pl, insertAt_length _ _ _ hp, Keys.list_length]
    refine ⟨⟨pw, by show 0 < (n.keys.putkeyAt s0 p).size; omega, by show (n.keys.putkeyAt s0 p).size ≤ _; omega, ?_, ?_⟩, E⟩
    · show (n.keys.putkeyAt s0 p).list.Pairwise _
      rw [pl]; exact hsort
    · show Chain _ lo (n.keys.putkeyAt s0 p).list (insertAt cs (p + 1) s) hi
      rw [pl]; exact C

theorem Tree.put_spec {d : Nat} {t : Tree β d} {lo hi key : Int} {m : Nat} (hm : 0 < m) (h : t.Inv (2 * m) lo hi) (hk : lo < key ∧ key ≤ hi) (hlo : -1 ≤ lo) (v : γ) :
    PutOk new upd (2 * m) t.entries key v lo hi (t.put new upd (2 * m) key v) := by
  induction d generalizing lo hi with
  | zero => exact Leaf.put_spec h.1 hm h.2.2 hk v
  | succ d ih =>
    obtain ⟨h1, h2, h3, h4, h5⟩ := h
    have S := (Keys.pos_spec h1 h4 key).index_bounds h4
    obtain ⟨c, lo', hi', pre, post, F⟩ := chain_focus Tree.entries (fun c lo hi h => Tree.Inv.bounds h) h5 S.1
    have hk' := focus_key F hk S.2.1 S.2.2
    have hlo' : -1 ≤ lo' := by
      rw [F.lower]
      cases hl : ((Inner.keys t).list.take ((Inner.keys t).pos key).index).getLast? with
      | none => exact hlo
      | some x =>
        have hx : x ∈ (Inner.keys t).list := List.mem_of_mem_take (List.mem_of_mem_getLast? hl)
        have := (chain_seps (fun c lo hi h => (Tree.Inv.bounds h).1) h5).2.2 x hx
        simp; omega
    have I := ih F.ok hk' hlo'
    unfold Tree.put
    simp only
    rw [F.get]
    simp only
    have hE : Tree.entries (d := d + 1) t = pre ++ (c.entries ++ post) := F.entries
    have hins : insE new upd key v (Tree.entries (d := d + 1) t) = pre ++ (insE new upd key v c.entries ++ post) := by
      rw [hE, insE_left (fun e he => by have := F.pre_le e he; omega), insE_right (fun e he => by have := F.post_gt e he; omega)]
    generalize Tree.put new upd (2 * m) c key v = r at *
    match r with
    | (c', none) =>
      obtain ⟨i1, i2⟩ := I
      refine ⟨⟨h1, h2, h3, h4, F.setOk c' i1⟩, ?_⟩
      show ((Inner.ch t).set _ c').flatMap Tree.entries = _
      rw [F.set, hins, i2]
    | (c', some s) =>
      obtain ⟨x, i1, i2, i3⟩ := I
      have U := updateChildren_spec hm h1 h3 h4 S.1 F i1 i2 hlo' (chain_length h5)
      simp only
      have hh : pre ++ (c'.entries ++ (s.entries ++ post)) = insE new upd key v (Tree.entries (d := d + 1) t) := by
        rw [hins, ← i3]; simp
      rw [hh] at U
      generalize Inner.updateChildren avg (2 * m) _ c' s _ = u at *
      match u with
      | (a, none) => exact U
      | (a, some b) => exact U

/-! ## Appending -/

theorem Leaf.append_eq {l : Leaf β} {lo hi key : Int} (h : LeafOk l lo hi) {m : Nat} (hm : 0 < m) (hk : ∀ x ∈ l.keys.list, x < key) (v : γ) :
    l.append new upd (2 * m) key v = l.put new upd (2 * m) key v := by
  have S := Keys.pos_spec h.wf h.sorted key
  have hp : l.keys.pos key = .ins l.keys.size := by
    cases hp : l.keys.pos key with
    | found p =>
      rw [hp] at S
      have := hk key (List.mem_of_getElem? S)
      omega
    | ins p =>
      rw [hp] at S
      congr 1
      rcases Nat.lt_or_ge p l.keys.size with hlt | hge
      · have hlt' : p < l.keys.list.length := by simpa using hlt
        have h1 := S.2.2 l.keys.list[p] (mem_drop_iff.2 ⟨p, Nat.le_refl _, List.getElem?_eq_getElem hlt'⟩)
        have h2 := hk l.keys.list[p] (List.getElem_mem _)
        omega
      · have := S.1
        rw [Keys.list_length] at this
        omega
  unfold Leaf.append Leaf.put Leaf.insert
  rw [hp]

theorem Tree.append_eq {d : Nat} {t : Tree β d} {lo hi key : Int} {m : Nat} (hm : 0 < m) (h : t.Inv (2 * m) lo hi) (hk : t.largest < key) (v : γ) :
    t.append new upd (2 * m) key v = t.put new upd (2 * m) key v := by
  induction d generalizing lo hi with
  | zero =>
    refine Leaf.append_eq h.1 hm (fun x hx => ?_) v
    have := (Tree.Inv.hi h (Int.le_refl _)).1.bounds x hx
    have hk : (Leaf.keys t).largest < key := hk
    have h2 : x ≤ (Leaf.keys t).largest := this.2
    omega
  | succ d ih =>
    obtain ⟨h1, h2, h3, h4, h5⟩ := h
    have S := Keys.pos_spec h1 h4 key
    have hall : ∀ x ∈ (Inner.keys t).list, x < key := by
      intro x hx
      have he := Tree.Inv.ends (d := d + 1) (max := 2 * m) (t := t) ⟨h1, h2, h3, h4, h5⟩
      obtain ⟨c2, lo2, hi2, pre2, post2, F2⟩ := chain_focus Tree.entries (fun c lo hi h => Tree.Inv.bounds h) h5 (Nat.le_refl _)
      have hg := F2.get
      rw [Keys.list_length] at hg
      have hlarge : t.largest = c2.largest := by
        show (match (Inner.ch t)[(Inner.keys t).size]? with | some c => Tree.largest c | none => 0) = _
        rw [hg]
      have e2 := F2.ok.ends
      have hlast : x ≤ lo2 := by
        rw [F2.lower, List.take_length, List.getLast?_eq_getElem?, Keys.list_length, Keys.list_getElem? _ (by omega), Option.getD_some]
        obtain ⟨i, hi', e⟩ := List.mem_iff_getElem.1 hx
        rw [Keys.list_getElem] at e
        rw [Keys.list_length] at hi'
        by_cases hl : i = (Inner.keys t).size - 1
        · subst hl; omega
        · have := Keys.keyAt_lt h4 (i := i) (j := (Inner.keys t).size - 1) (by omega) (by omega)
          omega
      omega
    have hp : ((Inner.keys t).pos key).index = (Inner.keys t).size := by
      have B := S.index_bounds h4
      rcases Nat.lt_or_ge ((Inner.keys t).pos key).index (Inner.keys t).size with hlt | hge
      · have hlt' : ((Inner.keys t).pos key).index < (Inner.keys t).list.length := by simpa using hlt
        have h1 := B.2.2 (Inner.keys t).list[((Inner.keys t).pos key).index] (mem_drop_iff.2 ⟨_, Nat.le_refl _, List.getElem?_eq_getElem hlt'⟩)
        have h2 := hall (Inner.keys t).list[((Inner.keys t).pos key).index] (List.getElem_mem _)
        omega
      · have := B.1
        rw [Keys.list_length] at this
        omega
    unfold Tree.append Tree.put
    simp only
    rw [hp]
    cases hc : (Inner.ch t)[(Inner.keys t).size]? with
    | none => rfl
    | some c =>
      have hk' : c.largest < key := by
        have hk : (match (Inner.ch t)[(Inner.keys t).size]? with | some c => Tree.largest c | none => 0) < key := hk
        rw [hc] at hk; exact hk
      obtain ⟨c2, lo2, hi2, pre2, post2, F2⟩ := chain_focus Tree.entries (fun c lo hi h => Tree.Inv.bounds h) h5 (Nat.le_refl _)
      have hg := F2.get
      rw [Keys.list_length, hc] at hg
      cases hg
      simp only
      rw [ih F2.ok hk']

/-! ## The root -/

/-- The tree holds the entries `es`. -/
def Root.Holds (m : Nat) (r : Root β) (es : List (Int × β)) : Prop :=
  r.tree.entries = es ∧
  ((∃ l : Leaf β, r = ⟨0, l⟩ ∧ l.keys = Keys.empty ∧ l.vals = []) ∨ ∃ lo hi, -1 ≤ lo ∧ r.tree.Inv (2 * m) lo hi)

theorem Root.empty_holds (m : Nat) : (Root.empty : Root β).Holds m [] := ⟨rfl, .inl ⟨_, rfl, rfl, rfl⟩⟩

theorem Root.Holds.sorted {m : Nat} {r : Root β} {es} (h : r.Holds m es) : es.Pairwise fun a b => a.1 < b.1 := by
  obtain ⟨rfl, ⟨l, rfl, e1, e2⟩ | ⟨lo, hi, -, h⟩⟩ := h
  · show (Leaf.entries l).Pairwise _
    simp [Leaf.entries, e1, e2]
  · exact h.sorted

theorem empty_leafOk (l : Leaf β) (h1 : l.keys = Keys.empty) (h2 : l.vals = []) (lo hi : Int) : LeafOk l lo hi :=
  ⟨by rw [h1]; exact Keys.empty_wf, by rw [h1, h2]; rfl, by rw [h1, Keys.empty_list]; simp, by rw [h1, Keys.empty_list]; simp⟩

theorem Root.grow_spec {d : Nat} {m : Nat} (hm : 0 < m) {r : Tree β d × Option (Tree β d)} {es} {key : Int} {v : γ} {lo hi : Int} (hlo : -1 ≤ lo)
    (h : PutOk new upd (2 * m) es key v lo hi r) : (Root.grow r).Holds m (insE new upd key v es) := by
  match r, h with
  | (t, none), h => exact ⟨h.2, .inr ⟨lo, hi, hlo, h.1⟩⟩
  | (a, some b), h =>
    obtain ⟨x, ha, hb, he⟩ := h
    obtain ⟨ha, hb⟩ := avg_between ha hb hlo
    have hw : (Keys.empty.putkeyAt (avg a b) 0).Wf ∧ (Keys.empty.putkeyAt (avg a b) 0).list = [avg a b] := by
      have := Keys.putkeyAt_spec Keys.empty_wf (key := avg a b) (p := 0) ⟨by simp, by simp, by simp [Keys.empty_list]⟩
      rw [Keys.empty_list] at this
      exact this
    refine ⟨?_, .inr ⟨lo, hi, hlo, hw.1, ?_, ?_, ?_, ?_⟩⟩
    · show [a, b].flatMap Tree.entries = _
      simp [he]
    · show 0 < (Keys.empty.putkeyAt (avg a b) 0).size
      rw [← Keys.list_length, hw.2]; simp
    · show (Keys.empty.putkeyAt (avg a b) 0).size ≤ _
      rw [← Keys.list_length, hw.2]; simp; omega
    · show (Keys.empty.putkeyAt (avg a b) 0).list.Pairwise _
      rw [hw.2]; simp
    · show Chain _ lo (Keys.empty.putkeyAt (avg a b) 0).list [a, b] hi
      rw [hw.2]; exact ⟨ha, hb⟩

/-- An invariant with bounds that hold a key. -/
theorem Tree.Inv.widen {d : Nat} {t : Tree β d} {max : Nat} {lo hi : Int} (h : t.Inv max lo hi) (key : Int) :
    ∃ lo' hi', t.Inv max lo' hi' ∧ lo' < key ∧ key ≤ hi' ∧ (-1 ≤ lo → 0 ≤ key → -1 ≤ lo') := by
  have e := h.ends
  refine ⟨Min.min lo (key - 1), Max.max hi key, (h.lo (lo' := Min.min lo (key - 1)) (by omega)).hi (by omega), by omega, by omega, by omega⟩

theorem Root.put_spec {m : Nat} (hm : 0 < m) {r : Root β} {es} (h : r.Holds m es) {key : Int} (hk : 0 ≤ key) (v : γ) :
    (r.put new upd (2 * m) key v).Holds m (insE new upd key v es) := by
  obtain ⟨rfl, ⟨l, rfl, e1, e2⟩ | ⟨lo, hi, hlo, h⟩⟩ := h
  · exact Root.grow_spec (lo := -1) (hi := key) hm (by omega) (Leaf.put_spec (empty_leafOk l e1 e2 _ _) hm (by rw [e1]; simp [Keys.empty]) ⟨by omega, by omega⟩ v)
  · obtain ⟨lo', hi', h', k1, k2, k3⟩ := h.widen key
    exact Root.grow_spec hm (k3 hlo hk) (Tree.put_spec hm h' ⟨k1, k2⟩ (k3 hlo hk) v)

theorem largest_mem {d : Nat} {max : Nat} {t : Tree β d} {lo hi : Int} (h : t.Inv max lo hi) : ∃ e ∈ t.entries, e.1 = t.largest := by
  induction d generalizing lo hi with
  | zero =>
    have := h.1.largest_mem h.2.1
    rw [← h.1.fst] at this
    exact List.mem_map.1 this
  | succ d ih =>
    obtain ⟨h1, h2, h3, h4, h5⟩ := h
    obtain ⟨c2, lo2, hi2, pre2, post2, F2⟩ := chain_focus Tree.entries (fun c lo hi h => Tree.Inv.bounds h) h5 (Nat.le_refl _)
    have hg := F2.get
    rw [Keys.list_length] at hg
    obtain ⟨e, he, e'⟩ := ih F2.ok
    refine ⟨e, ?_, ?_⟩
    · show e ∈ (Inner.ch t).flatMap Tree.entries
      rw [F2.entries]; simp [he]
    · rw [e']
      show _ = (match (Inner.ch t)[(Inner.keys t).size]? with | some c => Tree.largest c | none => 0)
      rw [hg]

theorem Root.append_eq {m : Nat} (hm : 0 < m) {r : Root β} {es} (h : r.Holds m es) {key : Int} (hk : ∀ e ∈ es, e.1 < key) (v : γ) :
    r.append new upd (2 * m) key v = r.put new upd (2 * m) key v := by
  obtain ⟨rfl, ⟨l, rfl, e1, e2⟩ | ⟨lo, hi, hlo, h⟩⟩ := h
  · show Root.grow (d := 0) (Leaf.append new upd (2 * m) l key v) = Root.grow (d := 0) (Leaf.put new upd (2 * m) l key v)
    rw [Leaf.append_eq (empty_leafOk l e1 e2 0 0) hm (by rw [e1, Keys.empty_list]; simp)]
  · obtain ⟨e, he, e'⟩ := largest_mem h
    unfold Root.append Root.put
    rw [Tree.append_eq hm h (by have := hk e he; omega)]

theorem Root.get_spec {m : Nat} {r : Root β} {es} (h : r.Holds m es) (key : Int) : r.get key = find key es := by
  obtain ⟨rfl, ⟨l, rfl, e1, e2⟩ | ⟨lo, hi, hlo, h⟩⟩ := h
  · show (match l.keys.pos key with | .found p => l.vals[p]? | .ins _ => none) = find key (l.keys.list.zip l.vals)
    rw [e1, e2]
    simp [Keys.empty, Keys.pos, find]
  · obtain ⟨lo', hi', h', k1, k2, -⟩ := h.widen key
    exact Tree.get_spec h' ⟨k1, k2⟩

end Trident.BTree
