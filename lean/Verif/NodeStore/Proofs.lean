import Verif.NodeStore.Model
/-! # The storage of tree nodes: proofs about `put` -/
namespace Trident.NodeStore

/-! ## Lists -/

theorem modify_append {α : Type} (f : α → α) (x : α) : ∀ (a b : List α), (a ++ x :: b).modify a.length f = a ++ f x :: b
  | [], b => rfl
  | y :: a, b => by simp [modify_append f x a b]

theorem overwrite_mid (x w b y : List UInt8) (h : w.length ≤ b.length) :
    overwrite (x ++ b ++ y) x.length w = x ++ (w ++ b.drop w.length) ++ y := by
  unfold overwrite
  have h1 : (x ++ b ++ y).take x.length = x := by simp [List.append_assoc]
  have h2 : (x ++ b ++ y).drop (x.length + w.length) = b.drop w.length ++ y := by
    rw [List.append_assoc, ← List.drop_drop, List.drop_left, List.drop_append_of_le_length h]
  rw [h1, h2]
  simp

theorem shiftFile_mid (x b y : List UInt8) (diff : Nat) (gap : Nat → UInt8) :
    ∃ g, g.length = diff ∧ shiftFile (x ++ b ++ y) x.length diff gap = x ++ (g ++ b) ++ y := by
  unfold shiftFile
  have h1 : (x ++ b ++ y).take x.length = x := by simp [List.append_assoc]
  have h2 : (x ++ b ++ y).drop x.length = b ++ y := by rw [List.append_assoc, List.drop_left]
  rw [h1, h2]
  refine ⟨((b ++ y) ++ (List.range diff).map gap).take diff, ?_, by simp⟩
  simp only [List.length_take, List.length_append, List.length_map, List.length_range]
  omega

/-! ## Blocks -/

/-- A node with its block. -/
abbrev NB := CNode × List UInt8

/-- The nodes of file `k` lie one behind the other from `p` on. -/
def Laid (k : Nat) : Nat → List NB → Prop
  | _, [] => True
  | p, x :: xs => x.1.file = k ∧ x.1.pos = p ∧ x.1.avail = x.2.length ∧ x.1.size ≤ x.2.length ∧ Laid k (p + x.2.length) xs

def bytesOf (l : List NB) : List UInt8 := (l.map Prod.snd).flatten

theorem bytesOf_append (a b : List NB) : bytesOf (a ++ b) = bytesOf a ++ bytesOf b := by simp [bytesOf]

theorem bytesOf_cons (x : NB) (b : List NB) : bytesOf (x :: b) = x.2 ++ bytesOf b := by simp [bytesOf]

theorem laid_append {k : Nat} : ∀ {p : Nat} {a b : List NB}, Laid k p (a ++ b) ↔ Laid k p a ∧ Laid k (p + (bytesOf a).length) b
  | p, [], b => by simp [Laid, bytesOf]
  | p, x :: a, b => by
    simp only [List.cons_append, Laid, bytesOf_cons, List.length_append, laid_append (a := a) (b := b)]
    rw [Nat.add_assoc]
    simp only [and_assoc]

def move (diff : Nat) (x : NB) : NB := ({ x.1 with pos := x.1.pos + diff }, x.2)

theorem laid_move {k diff : Nat} : ∀ {p : Nat} {a : List NB}, Laid k p a → Laid k (p + diff) (a.map (move diff))
  | _, [], _ => trivial
  | p, x :: a, h => by
    obtain ⟨h1, h2, h3, h4, h5⟩ := h
    refine ⟨h1, by simp [move, h2], h3, h4, ?_⟩
    have := laid_move (diff := diff) h5
    rw [show p + diff + (move diff x).2.length = p + x.2.length + diff by simp only [move]; omega]
    exact this

theorem bytesOf_move (diff : Nat) (a : List NB) : bytesOf (a.map (move diff)) = bytesOf a := by
  simp [bytesOf, List.map_map, Function.comp_def, move]

/-- The store is the one of the given nodes and blocks. -/
structure Rep (s : Store) (A : List (List NB)) : Prop where
  lists : s.lists = A.map (List.map Prod.fst)
  data : s.data = A.map bytesOf
  laid : ∀ k P, A[k]? = some P → Laid k 0 P
  nodup : (A.flatten.map fun x => x.1.id).Nodup
  full : A = [[]] ∨ (A ≠ [] ∧ ∀ P ∈ A, P ≠ [])

/-- What the store holds. -/
def view (A : List (List NB)) : List (Nat × Bool × List UInt8) := A.flatten.map fun x => (x.1.id, x.1.children, x.2.take x.1.size)

theorem fresh_rep : Rep Store.fresh [[]] :=
  ⟨rfl, rfl, fun k P h => by
    cases k with
    | zero => cases h; trivial
    | succ k => (cases h), by simp, Or.inl rfl⟩

theorem bump_skip {id diff n : Nat} : ∀ {l : List CNode}, id ∉ l.map CNode.id → bump id diff n l = l
  | [], _ => rfl
  | c :: l, h => by
    simp at h
    unfold bump
    rw [if_neg (fun e => h.1 e.symm), bump_skip (by simpa using h.2)]

theorem bump_hit {id diff n : Nat} {c : CNode} (hc : c.id = id) : ∀ {a b : List CNode}, id ∉ a.map CNode.id →
    bump id diff n (a ++ c :: b) = a ++ { c with avail := c.avail + diff, size := n } :: b.map fun d => { d with pos := d.pos + diff }
  | [], b, _ => by unfold bump; simp [hc]
  | x :: a, b, h => by
    simp at h
    simp only [List.cons_append]
    unfold bump
    rw [if_neg (fun e => h.1 e.symm), bump_hit hc (by simpa using h.2)]

theorem split_of_mem {A : List (List NB)} {x : NB} (h : x ∈ A.flatten) : ∃ A1 P1 P2 A2, A = A1 ++ (P1 ++ x :: P2) :: A2 := by
  obtain ⟨P, hP, hx⟩ := List.mem_flatten.1 h
  obtain ⟨A1, A2, rfl⟩ := List.append_of_mem hP
  obtain ⟨P1, P2, rfl⟩ := List.append_of_mem hx
  exact ⟨A1, P1, P2, A2, rfl⟩

theorem find_mem {s : Store} {A : List (List NB)} (h : Rep s A) {id : Nat} {c : CNode} (hf : s.find id = some c) : c.id = id ∧ ∃ b, (c, b) ∈ A.flatten := by
  unfold Store.find at hf
  have h1 := List.find?_some hf
  have h2 := List.mem_of_find?_eq_some hf
  rw [h.lists, ← List.map_flatten] at h2
  obtain ⟨x, hx, rfl⟩ := List.mem_map.1 h2
  exact ⟨by simpa using h1, x.2, hx⟩

theorem find_none {s : Store} {A : List (List NB)} (h : Rep s A) {id : Nat} (hf : s.find id = none) : id ∉ A.flatten.map fun x => x.1.id := by
  unfold Store.find at hf
  intro hm
  obtain ⟨x, hx, he⟩ := List.mem_map.1 hm
  have := List.find?_eq_none.1 hf x.1 (by rw [h.lists, ← List.map_flatten]; exact List.mem_map_of_mem hx)
  simp [he] at this

theorem find_of_mem {s : Store} {A : List (List NB)} (h : Rep s A) {x : NB} (hx : x ∈ A.flatten) : s.find x.1.id = some x.1 := by
  cases hf : s.find x.1.id with
  | none => exact absurd (List.mem_map_of_mem hx) (find_none h hf)
  | some c =>
    obtain ⟨h1, b, hb⟩ := find_mem h hf
    have : (c, b) = x := by
      have hn := h.nodup
      obtain ⟨i, hi, ei⟩ := List.getElem_of_mem hb
      obtain ⟨j, hj, ej⟩ := List.getElem_of_mem hx
      have hij : i = j := by
        apply (List.getElem_inj (h₀ := by rw [List.length_map]; exact hi) (h₁ := by rw [List.length_map]; exact hj) hn).1
        simp only [List.getElem_map, ei, ej, h1]
      subst hij
      rw [← ei, ← ej]
    rw [← this]

/-- Writing a node that is there. -/
theorem put_old {nodeMin fileMax : Nat} {s s' : Store} {A : List (List NB)} {p : Put} {cn : CNode} (h : Rep s A) (hf : s.find p.id = some cn)
    (hp : s.put nodeMin fileMax p = some s') : ∃ A' V1 V2 b, Rep s' A' ∧ view A = V1 ++ (p.id, cn.children, b) :: V2 ∧ p.id ∉ V1.map (·.1) ∧
      view A' = V1 ++ (p.id, cn.children, p.buf.take p.n) :: V2 ∧ p.n ≤ p.buf.length := by
  obtain ⟨hid, b, hm⟩ := find_mem h hf
  obtain ⟨A1, P1, P2, A2, rfl⟩ := split_of_mem hm
  have hlaid := h.laid A1.length (P1 ++ (cn, b) :: P2) (by simp)
  obtain ⟨l1, l2⟩ := laid_append.1 hlaid
  obtain ⟨e1, e2, e3, e4, e5⟩ := l2
  rw [Nat.zero_add] at e2 e5
  replace e1 : cn.file = A1.length := e1
  replace e2 : cn.pos = (bytesOf P1).length := e2
  replace e3 : cn.avail = b.length := e3
  replace e5 : Laid A1.length ((bytesOf P1).length + b.length) P2 := e5
  unfold Store.put at hp
  rw [hf] at hp
  simp only at hp
  by_cases hb : p.buf.length < p.n
  · rw [if_pos hb] at hp; cases hp
  rw [if_neg hb] at hp
  cases hp
  have hw : (p.buf.take p.n).length = p.n := by simp; omega
  -- the new block
  generalize hdiff : (if p.n > cn.avail then increment p.n cn.avail else 0) = diff
  have hn : p.n ≤ diff + b.length := by
    rw [← hdiff]
    split
    · unfold increment; omega
    · omega
  have hblock : ∃ b', b'.length = b.length + diff ∧ b'.take p.n = p.buf.take p.n ∧
      overwrite (if p.n > cn.avail then shiftFile (bytesOf (P1 ++ (cn, b) :: P2)) cn.pos diff p.gap else bytesOf (P1 ++ (cn, b) :: P2)) cn.pos (p.buf.take p.n) =
        bytesOf P1 ++ b' ++ bytesOf P2 := by
    have hbytes : bytesOf (P1 ++ (cn, b) :: P2) = bytesOf P1 ++ b ++ bytesOf P2 := by rw [bytesOf_append, bytesOf_cons, List.append_assoc]
    rw [hbytes, e2]
    by_cases hc : p.n > cn.avail
    · rw [if_pos hc]
      obtain ⟨g, hg, hs⟩ := shiftFile_mid (bytesOf P1) b (bytesOf P2) diff p.gap
      rw [hs, overwrite_mid _ _ _ _ (by rw [hw]; simp; omega)]
      refine ⟨_, ?_, ?_, rfl⟩
      · simp only [List.length_append, List.length_drop, hw]; omega
      · rw [List.take_append_of_le_length (by omega), List.take_take, Nat.min_self]
    · rw [if_neg hc]
      have hd0 : diff = 0 := by rw [← hdiff, if_neg hc]
      rw [overwrite_mid _ _ _ _ (by rw [hw]; omega)]
      refine ⟨_, ?_, ?_, rfl⟩
      · simp only [List.length_append, List.length_drop, hw]; omega
      · rw [List.take_append_of_le_length (by omega), List.take_take, Nat.min_self]
  obtain ⟨b', hb1, hb2, hb3⟩ := hblock
  have hnd := h.nodup
  simp only [List.flatten_append, List.flatten_cons, List.map_append, List.map_cons] at hnd
  rw [hid] at hnd
  have hids : p.id ∉ A1.flatten.map (fun x => x.1.id) ∧ p.id ∉ P1.map (fun x => x.1.id) ∧ p.id ∉ P2.map (fun x => x.1.id) ∧ p.id ∉ A2.flatten.map (fun x => x.1.id) := by
    refine ⟨?_, ?_, ?_, ?_⟩
    · intro hx; exact (List.nodup_append.1 hnd).2.2 _ hx _ (by simp) rfl
    · intro hx
      have := (List.nodup_append.1 ((List.nodup_append.1 (List.nodup_append.1 hnd).2.1).1)).2.2 _ hx _ List.mem_cons_self
      exact this rfl
    · intro hx
      exact (List.nodup_cons.1 (List.nodup_append.1 (List.nodup_append.1 (List.nodup_append.1 hnd).2.1).1).2.1).1 hx
    · intro hx
      exact (List.nodup_append.1 (List.nodup_append.1 hnd).2.1).2.2 p.id (by simp) _ hx rfl
  let x' : NB := ({ cn with avail := cn.avail + diff, size := p.n }, b')
  refine ⟨A1 ++ (P1 ++ x' :: P2.map (move diff)) :: A2, view A1 ++ (P1.map fun x => (x.1.id, x.1.children, x.2.take x.1.size)),
    (P2.map fun x => (x.1.id, x.1.children, x.2.take x.1.size)) ++ view A2, b.take cn.size, ⟨?_, ?_, ?_, ?_, ?_⟩, ?_, ?_, ?_, by omega⟩
  · -- lists
    simp only [h.lists, List.map_append, List.map_cons, List.map_map]
    congr 1
    · rw [List.map_inj_left]
      intro P hP
      exact bump_skip fun hx => hids.1 (by
        obtain ⟨c, hc, he⟩ := List.mem_map.1 hx
        obtain ⟨y, hy, rfl⟩ := List.mem_map.1 hc
        exact List.mem_map.2 ⟨y, List.mem_flatten.2 ⟨P, hP, hy⟩, he⟩)
    · congr 1
      · rw [bump_hit hid (by simpa [List.map_map, Function.comp_def] using hids.2.1)]
        simp [x', List.map_map, Function.comp_def, move]
      · rw [List.map_inj_left]
        intro P hP
        exact bump_skip fun hx => hids.2.2.2 (by
          obtain ⟨c, hc, he⟩ := List.mem_map.1 hx
          obtain ⟨y, hy, rfl⟩ := List.mem_map.1 hc
          exact List.mem_map.2 ⟨y, List.mem_flatten.2 ⟨P, hP, hy⟩, he⟩)
  · -- data
    have hm := modify_append (fun d => overwrite (if p.n > cn.avail then shiftFile d cn.pos diff p.gap else d) cn.pos (p.buf.take p.n))
      (bytesOf (P1 ++ (cn, b) :: P2)) (A1.map bytesOf) (A2.map bytesOf)
    rw [List.length_map, hb3] at hm
    simp only [h.data, List.map_append, List.map_cons, e1]
    rw [hm]
    congr 2
    rw [bytesOf_append, bytesOf_cons, bytesOf_move]
    simp [x']
  · -- laid
    intro k P hk
    by_cases hlt : k = A1.length
    · subst hlt
      simp at hk
      subst hk
      refine laid_append.2 ⟨l1, e1, by simpa [x'] using e2, by simp only [x'] at e3 ⊢; omega, by simp only [x']; omega, ?_⟩
      have := laid_move (diff := diff) e5
      rw [show 0 + (bytesOf P1).length + x'.2.length = (bytesOf P1).length + b.length + diff by simp only [x']; omega]
      exact this
    · refine h.laid k P ?_
      by_cases h1 : k < A1.length
      · rw [List.getElem?_append_left h1] at hk ⊢; exact hk
      · rw [List.getElem?_append_right (by omega)] at hk ⊢
        obtain ⟨j, hj⟩ : ∃ j, k - A1.length = j + 1 := ⟨k - A1.length - 1, by omega⟩
        rw [hj] at hk ⊢
        simpa using hk
  · have : ((A1 ++ (P1 ++ x' :: P2.map (move diff)) :: A2).flatten.map fun x => x.1.id) = ((A1 ++ (P1 ++ (cn, b) :: P2) :: A2).flatten.map fun x => x.1.id) := by
      simp [x', List.map_map, Function.comp_def, move]
    rw [this]
    exact h.nodup
  · right
    rcases h.full with hfl | hfl
    · have := congrArg List.flatten hfl
      simp at this
    · refine ⟨by simp, fun P hP => ?_⟩
      rcases List.mem_append.1 hP with hP | hP
      · exact hfl.2 P (by simp [hP])
      · rcases List.mem_cons.1 hP with rfl | hP
        · simp
        · exact hfl.2 P (by simp [hP])
  · simp [view, hid]
  · simp only [List.map_append, List.mem_append, not_or]
    refine ⟨?_, ?_⟩
    · simpa [view, List.map_map, Function.comp_def] using hids.1
    · simpa [List.map_map, Function.comp_def] using hids.2.1
  · simp [view, x', hid, hb2, List.map_map, Function.comp_def, move]

/-- Writing a new node. -/
theorem put_new {nodeMin fileMax : Nat} (hM : 0 < fileMax) {s s' : Store} {A : List (List NB)} {p : Put} (h : Rep s A) (hf : s.find p.id = none)
    (hp : s.put nodeMin fileMax p = some s') : ∃ A', Rep s' A' ∧ view A' = view A ++ [(p.id, p.children, p.buf.take p.n)] ∧ p.n ≤ p.buf.length := by
  unfold Store.put at hp
  rw [hf] at hp
  simp only at hp
  by_cases hb : p.buf.length < max nodeMin p.n
  · rw [if_pos hb] at hp; cases hp
  rw [if_neg hb] at hp
  have hn := find_none h hf
  -- the state in which the node is appended: the last file is `P`
  have core : ∀ (s1 : Store) (A1 : List (List NB)) (P : List NB), s1.lists = (A1 ++ [P]).map (List.map Prod.fst) → s1.data = (A1 ++ [P]).map bytesOf →
      (∀ k Q, (A1 ++ [P])[k]? = some Q → Laid k 0 Q) → (A1 ++ [P]).flatten = A.flatten → (∀ Q ∈ A1, Q ≠ []) →
      some (Store.mk (s1.lists.modify (s1.data.length - 1) (· ++ [⟨p.id, p.children, p.n, max nodeMin p.n, (s1.data.getLastD []).length, s1.data.length - 1⟩]))
        (s1.data.modify (s1.data.length - 1) (· ++ p.buf.take (max nodeMin p.n)))) = some s' →
      ∃ A', Rep s' A' ∧ view A' = view A ++ [(p.id, p.children, p.buf.take p.n)] ∧ p.n ≤ p.buf.length := by
    intro s1 A1 P hl hd hlaid hflat hne heq
    have hlen : s1.data.length - 1 = A1.length := by rw [hd]; simp
    have hlast : s1.data.getLastD [] = bytesOf P := by rw [hd, List.map_append, List.map_singleton, List.getLastD_concat]
    rw [hlen, hlast] at heq
    cases heq
    have hbl : (p.buf.take (max nodeMin p.n)).length = max nodeMin p.n := by simp; omega
    refine ⟨A1 ++ [P ++ [(⟨p.id, p.children, p.n, max nodeMin p.n, (bytesOf P).length, A1.length⟩, p.buf.take (max nodeMin p.n))]], ⟨?_, ?_, ?_, ?_, ?_⟩, ?_, by omega⟩
    · have := modify_append (· ++ [CNode.mk p.id p.children p.n (max nodeMin p.n) (bytesOf P).length A1.length]) (P.map Prod.fst) (A1.map (List.map Prod.fst)) []
      rw [List.length_map] at this
      simp only [hl, List.map_append, List.map_cons, List.map_nil]
      rw [this]
    · have := modify_append (· ++ p.buf.take (max nodeMin p.n)) (bytesOf P) (A1.map bytesOf) []
      rw [List.length_map] at this
      simp only [hd, List.map_append, List.map_cons, List.map_nil]
      rw [this, bytesOf_append]
      simp [bytesOf]
    · intro k Q hk
      by_cases hlt : k < A1.length
      · refine hlaid k Q ?_
        rw [List.getElem?_append_left hlt] at hk ⊢
        exact hk
      · rw [List.getElem?_append_right (by omega)] at hk
        by_cases he : k = A1.length
        · subst he
          simp at hk
          subst hk
          refine laid_append.2 ⟨hlaid A1.length P (by simp), rfl, by simp, hbl.symm, by simp only [hbl]; omega, trivial⟩
        · obtain ⟨j, hj⟩ : ∃ j, k - A1.length = j + 1 := ⟨k - A1.length - 1, by omega⟩
          rw [hj] at hk
          simp at hk
    · have : ((A1 ++ [P ++ [(CNode.mk p.id p.children p.n (max nodeMin p.n) (bytesOf P).length A1.length, p.buf.take (max nodeMin p.n))]]).flatten.map fun x => x.1.id)
          = (A.flatten.map fun x => x.1.id) ++ [p.id] := by
        rw [← hflat]; simp
      rw [this]
      refine List.nodup_append.2 ⟨h.nodup, by simp, ?_⟩
      intro a ha b hb'
      rw [List.mem_singleton.1 hb']
      rintro rfl
      exact hn ha
    · right
      refine ⟨by simp, fun Q hQ => ?_⟩
      rcases List.mem_append.1 hQ with hQ | hQ
      · exact hne Q hQ
      · rw [List.mem_singleton.1 hQ]; simp
    · unfold view
      rw [← hflat]
      have : (p.buf.take (max nodeMin p.n)).take p.n = p.buf.take p.n := by
        rw [List.take_take]
        congr 1
        omega
      simp [this]
  have hAne : A ≠ [] := by
    rcases h.full with hfl | hfl
    · rw [hfl]; simp
    · exact hfl.1
  obtain ⟨A1, P, hAP⟩ : ∃ A1 P, A = A1 ++ [P] := ⟨A.dropLast, A.getLast hAne, (List.dropLast_concat_getLast hAne).symm⟩
  have hlast : s.data.getLastD [] = bytesOf P := by rw [h.data, hAP, List.map_append, List.map_singleton, List.getLastD_concat]
  have hfull : (∀ Q ∈ A1, Q ≠ []) ∧ (P = [] → A1 = []) := by
    rcases h.full with hfl | hfl
    · rw [hfl] at hAP
      have hl := congrArg List.length hAP
      simp at hl
      subst hl
      exact ⟨by simp, fun _ => rfl⟩
    · exact ⟨fun Q hQ => hfl.2 Q (by rw [hAP]; simp [hQ]), fun hP => absurd hP (hfl.2 P (by rw [hAP]; simp))⟩
  by_cases hc : (s.data.getLastD []).length ≥ fileMax
  · simp only [if_pos hc] at hp
    have hPne : P ≠ [] := by
      rintro rfl
      rw [hlast] at hc
      simp [bytesOf] at hc
      omega
    refine core ⟨s.lists ++ [[]], s.data ++ [[]]⟩ A [] (by simp [h.lists]) (by simp [h.data, bytesOf]) ?_ (by simp) ?_ hp
    · intro k Q hk
      by_cases hlt : k < A.length
      · rw [List.getElem?_append_left hlt] at hk; exact h.laid k Q hk
      · rw [List.getElem?_append_right (by omega)] at hk
        cases hj : k - A.length with
        | zero => rw [hj] at hk; simp at hk; subst hk; trivial
        | succ j => rw [hj] at hk; simp at hk
    · intro Q hQ
      rw [hAP] at hQ
      rcases List.mem_append.1 hQ with hQ | hQ
      · exact hfull.1 Q hQ
      · rw [List.mem_singleton.1 hQ]; exact hPne
  · simp only [if_neg hc] at hp
    refine core s A1 P (by rw [h.lists, hAP]) (by rw [h.data, hAP]) (by rw [← hAP]; exact h.laid) (by rw [hAP]) hfull.1 hp

/-! ## What is read back -/

theorem blockOf_mem {s : Store} {A : List (List NB)} (h : Rep s A) {x : NB} (hx : x ∈ A.flatten) : blockOf s.data x.1 = some (x.2.take x.1.size) := by
  obtain ⟨A1, P1, P2, A2, rfl⟩ := split_of_mem hx
  obtain ⟨l1, e1, e2, e3, e4, -⟩ := laid_append.1 (h.laid A1.length (P1 ++ x :: P2) (by simp))
  simp only [Nat.zero_add] at e2
  unfold blockOf
  have hd : s.data[x.1.file]? = some (bytesOf P1 ++ (x.2 ++ bytesOf P2)) := by
    rw [h.data, e1]
    simp [bytesOf_append, bytesOf_cons]
  rw [hd]
  simp only [Option.bind_some]
  rw [if_pos (by simp only [List.length_append]; omega), e2, List.drop_left, List.take_append_of_le_length e4]

theorem get_view {s : Store} {A : List (List NB)} (h : Rep s A) (id : Nat) : s.get id = ((view A).find? fun v => v.1 == id).map (·.2) := by
  unfold Store.get
  cases hf : s.find id with
  | none =>
    have hn := find_none h hf
    have : (view A).find? (fun v => v.1 == id) = none := by
      rw [List.find?_eq_none]
      intro v hv
      obtain ⟨x, hx, rfl⟩ := List.mem_map.1 hv
      simp only [beq_iff_eq]
      intro he
      exact hn (List.mem_map.2 ⟨x, hx, he⟩)
    rw [this]
    rfl
  | some c =>
    obtain ⟨h1, b, hb⟩ := find_mem h hf
    obtain ⟨A1, P1, P2, A2, rfl⟩ := split_of_mem hb
    have hv : (view (A1 ++ (P1 ++ (c, b) :: P2) :: A2)).find? (fun v => v.1 == id) = some (id, c.children, b.take c.size) := by
      have hnd := h.nodup
      have hpre : view (A1 ++ (P1 ++ (c, b) :: P2) :: A2) = (view A1 ++ (P1.map fun x => (x.1.id, x.1.children, x.2.take x.1.size))) ++
          (id, c.children, b.take c.size) :: ((P2.map fun x => (x.1.id, x.1.children, x.2.take x.1.size)) ++ view A2) := by
        simp [view, h1]
      rw [hpre]
      have hnot : (view A1 ++ (P1.map fun x => (x.1.id, x.1.children, x.2.take x.1.size))).find? (fun v => v.1 == id) = none := by
        rw [List.find?_eq_none]
        intro v hv
        simp only [beq_iff_eq]
        rintro rfl
        have hm : v.1 ∈ (A1.flatten ++ P1).map fun x => x.1.id := by
          rcases List.mem_append.1 hv with hv | hv
          · obtain ⟨y, hy, rfl⟩ := List.mem_map.1 hv; exact List.mem_map.2 ⟨y, by simp [hy], rfl⟩
          · obtain ⟨y, hy, rfl⟩ := List.mem_map.1 hv; exact List.mem_map.2 ⟨y, by simp [hy], rfl⟩
        have : ((A1 ++ (P1 ++ (c, b) :: P2) :: A2).flatten.map fun x => x.1.id) = ((A1.flatten ++ P1).map fun x => x.1.id) ++ (((c, b) :: P2 ++ A2.flatten).map fun x => x.1.id) := by simp
        rw [this] at hnd
        exact (List.nodup_append.1 hnd).2.2 _ hm v.1 (by simp [h1]) rfl
      rw [List.find?_append, hnot]
      simp
    rw [hv]
    simp only [Option.bind_some, blockOf_mem h hb, Option.map_some]

end Trident.NodeStore
