import Verif.Tree.LeafProofs
/-!
# C30–C34: the term tree
-/
namespace Trident
open BTree

/-! ## Specification -/

/-- A new tree with at most `max` keys in a node, after storing the given numbers. -/
def putAll {α : Type} (max : Nat) (ops : List (Int × α)) : Root α := ops.foldl (fun r o => r.put id (fun _ v => v) max o.1 o.2) Root.empty

/-- The last value stored for a key. -/
def lastPut {α : Type} (ops : List (Int × α)) (key : Int) : Option α := ((ops.filter fun o => o.1 = key).getLast?).map (·.2)

/-- A new tree after storing the given coordinates. -/
def putCoords (max : Nat) (ops : List (Int × TermCoords)) : Root (List Coord) := ops.foldl (fun r o => r.putCoords max o.1 o.2) Root.empty

/-- The keys are `a, a + s, a + 2s, …`, at least two of them. -/
def Progression (s : Int) (l : List Int) : Prop := ∃ a n, 2 ≤ n ∧ l = (List.range n).map fun (i : Nat) => a + (i : Int) * s

/-- There are six permutations, and the fields have their sizes in the code. -/
def BTree.TermCoords.Fits (v : TermCoords) : Prop := ∀ p x, v p = some x → p < 6 ∧ x.n < 2 ^ 64 ∧ x.file < 2 ^ 16 ∧ x.pos < 2 ^ 64

/-- What a key has after coordinates `v` are put over `old`: below the first permutation of `v` nothing, above it the old ones stay
unless `v` has them. -/
def overlay (old v : TermCoords) : TermCoords := fun p =>
  match v p with
  | some x => some x
  | none => if (List.range p).any fun j => (v j).isSome then old p else none

/-- The coordinates of a key after a history. -/
def coordsAfter (ops : List (Int × TermCoords)) (key : Int) : Option TermCoords :=
  ops.foldl (fun acc o => if o.1 = key then some (overlay (acc.getD fun _ => none) o.2) else acc) none

/-- The bytes at the beginning of a memory. -/
def memAt0 (bs : List UInt8) : Mem := fun a => bs.getD a 0

/-! ## C30 -/

theorem putAll_holds {α : Type} {m : Nat} (hm : 0 < m) (ops : List (Int × α)) (hk : ∀ o ∈ ops, 0 ≤ o.1) :
    ∃ es, (putAll (2 * m) ops).Holds m es ∧ (∀ e ∈ es, ∃ o ∈ ops, o.1 = e.1) ∧ ∀ key, BTree.find key es = lastPut ops key := by
  obtain ⟨es, a, b, c⟩ := puts_holds (new := id) (upd := fun _ v => v) hm ops hk (Root.empty_holds m)
  refine ⟨es, a, fun e he => (b e he).resolve_left (by simp), fun key => ?_⟩
  rw [c]
  have : ∀ (ops : List (Int × α)) (acc : Option α),
      ops.foldl (fun acc o => if o.1 = key then some (acc.elim (id o.2) fun _ => o.2) else acc) acc = (lastPut ops key).or acc := by
    intro ops
    induction ops with
    | nil => intro acc; rfl
    | cons o ops ih =>
      intro acc
      rw [List.foldl_cons, ih]
      unfold lastPut
      by_cases h : o.1 = key
      · rw [if_pos h, List.filter_cons, if_pos (by simpa using h), List.getLast?_cons]
        cases hl : (ops.filter fun o => o.1 = key).getLast? with
        | none => cases acc <;> simp
        | some x => cases acc <;> simp
      · rw [if_neg h, List.filter_cons, if_neg (by simpa using h)]
  have h2 := this ops none
  rw [Option.or_none] at h2
  exact h2

/-- **C30** (partial): after any puts of keys that are not negative, in a tree with an even number of keys in a node, `get` returns the
last value put for the key, and nothing if there is none.
Missing: odd capacities, negative keys, and leaves that were written to disk in between (all three are false, see below). -/
theorem C30_map_partial {α : Type} (m : Nat) (hm : 0 < m) (ops : List (Int × α)) (hk : ∀ o ∈ ops, 0 ≤ o.1) (key : Int) :
    (putAll (2 * m) ops).get key = lastPut ops key := by
  obtain ⟨es, a, -, c⟩ := putAll_holds hm ops hk
  rw [Root.get_spec a, c]

/-- **C30** (partial): appending keys in increasing order does the same as putting them. -/
theorem C30_append_partial {α : Type} (m : Nat) (hm : 0 < m) (ops : List (Int × α)) (hk : ∀ o ∈ ops, 0 ≤ o.1) (hs : ops.Pairwise fun a b => a.1 < b.1) :
    ops.foldl (fun r o => r.append id (fun _ v => v) (2 * m) o.1 o.2) Root.empty = putAll (2 * m) ops := by
  suffices ∀ (rest done : List (Int × α)), (done ++ rest) = ops →
      rest.foldl (fun r o => r.append id (fun _ v => v) (2 * m) o.1 o.2) (putAll (2 * m) done) = putAll (2 * m) ops from this ops [] rfl
  intro rest
  induction rest with
  | nil => intro done h; simp at h; rw [h]; rfl
  | cons o rest ih =>
    intro done h
    subst h
    rw [List.foldl_cons, ← ih (done ++ [o]) (by simp)]
    congr 1
    obtain ⟨es, a, b, -⟩ := putAll_holds hm done (fun x hx => hk x (by simp [hx]))
    rw [Root.append_eq hm a]
    · simp [putAll]
    · intro e he
      obtain ⟨x, hx, e'⟩ := b e he
      rw [List.pairwise_append] at hs
      have := hs.2.2 x hx o (by simp)
      omega

/-- The hypotheses hold and the tree is deep: sixteen keys put out of order and one put twice, two keys in a node. -/
example : ∀ o ∈ [(5, 50), (1, 10), (9, 90), (3, 30), (7, 70), (0, 0), (4, 40), (2, 20), (8, 80), (6, 60), (12, 1), (11, 2), (15, 3), (14, 4), (3, 31)], (0 : Int) ≤ o.1 := by decide
example : let r := putAll 2 [(5, 50), (1, 10), (9, 90), (3, 30), (7, 70), (0, 0), (4, 40), (2, 20), (8, 80), (6, 60), (12, 1), (11, 2), (15, 3), (14, 4), (3, 31)]
    r.depth = 3 ∧ r.get 3 = some 31 ∧ r.get 10 = none ∧ r.get 15 = some 3 := by decide +kernel

/-- **C30** fails for odd capacities: a full node of three keys is split into two halves of one key. -/
theorem C30_odd_capacity_violated : lastPut [(1, 10), (2, 20), (3, 30), (4, 40)] 3 = some 30 ∧ (putAll 3 [(1, 10), (2, 20), (3, 30), (4, 40)]).get 3 = none := by
  decide +kernel

/-- **C30** fails for negative keys: the mean of two of them is rounded up. -/
theorem C30_negative_key_violated : lastPut [(-3, 1), (-2, 2), (-1, 3)] (-2) = some 2 ∧ (putAll 2 [(-3, 1), (-2, 2), (-1, 3)]).get (-2) = none := by
  decide +kernel

/-- **C30** fails if a leaf is written to disk, read back (cache.cpp:51-76) and then put into: the keys 0, 2, 4 are kept as a sequence
with step 2, and the next key makes 0, 1, 2 of them. -/
theorem C30_reloaded_leaf_violated :
    ∃ l : Leaf Nat, (putAll 8 [(0, 10), (2, 20), (4, 30)]) = ⟨0, l⟩ ∧
      let l' := Leaf.unserializeNums Keys.empty (memAt0 l.serializeNums) 0
      (Root.mk 0 l' : Root Nat).get 2 = some 20 ∧ ((Root.mk 0 l' : Root Nat).put id (fun _ v => v) 8 5 40).get 2 = some 30 := by
  refine ⟨⟨⟨3, 0, [2, 4], false, 1⟩, [10, 20, 30]⟩, rfl, ?_⟩
  decide +kernel

/-! ## C31 -/

/-- **C31** (partial, see C30): the iterator returns the keys that were put, each once and in increasing order, with the last value put.
Missing: the capacities, keys and reloaded leaves for which C30 fails. -/
theorem C31_iteration_partial {α : Type} (m : Nat) (hm : 0 < m) (ops : List (Int × α)) (hk : ∀ o ∈ ops, 0 ≤ o.1) :
    ∃ es : List (Int × α), Yields (putAll (2 * m) ops).tree.itr (putAll (2 * m) ops).itr (es.map fun e => (e.1, some e.2)) ∧
      (es.Pairwise fun a b => a.1 < b.1) ∧ ∀ key v, (key, v) ∈ es ↔ lastPut ops key = some v := by
  obtain ⟨es, a, -, c⟩ := putAll_holds hm ops hk
  exact ⟨es, Root.itr_spec a, a.sorted, fun key v => by rw [mem_iff_find a.sorted, c]⟩

/-- A tree of three levels. -/
def exTree : Root Nat := putAll 2 [(5, 50), (1, 10), (9, 90), (3, 30), (7, 70), (0, 0), (3, 31)]
example : Yields exTree.tree.itr exTree.itr [(0, some 0), (1, some 10), (3, some 31), (5, some 50), (7, some 70), (9, some 90)] := by
  rw [yields_cons, yields_cons, yields_cons, yields_cons, yields_cons, yields_cons, yields_nil]
  decide +kernel

/-! ## C32 -/

theorem stepByte_of {k : Keys} {max : Nat} {lo hi : Int} (h : NodeOk k max lo hi) (hp : ∀ s, 128 ≤ s → s < 256 → ¬ Progression s k.list) : k.stepByte < 128 ∨ k.size ≤ 1 := by
  rcases Nat.lt_or_ge 1 k.size with h1 | h1
  · obtain ⟨a, b, -⟩ := stepByte_spec h.wf h.sorted h1
    left
    rcases Nat.lt_or_ge k.stepByte 128 with h2 | h2
    · exact h2
    · exact absurd ⟨k.first, k.size, by omega, b (by omega)⟩ (hp k.stepByte (by omega) (by omega))
  · exact .inr h1

/-- **C32** (partial): the keys of any node of a tree, written and read into any other node, are the same (and the reader stops where the
writer did), if they are not a progression with a step from 128 to 255.  The keys fit in 63 bits.
Missing: such progressions, for which it is false (below). -/
theorem C32_keys_partial {α : Type} (m : Nat) (hm : 0 < m) (hm2 : m < 2 ^ 29) (ops : List (Int × α)) (hk : ∀ o ∈ ops, 0 ≤ o.1 ∧ o.1 < 2 ^ 63)
    (path : List Nat) (k : Keys) (hn : (putAll (2 * m) ops).tree.keysAt path = some k) (hp : ∀ s, 128 ≤ s → s < 256 → ¬ Progression s k.list)
    (other : Keys) (mem : Mem) (a : Nat) (hmem : Placed mem a k.serialize) :
    (Keys.unserialize other mem 10 a).1.list = k.list ∧ (Keys.unserialize other mem 10 a).2 = a + k.serialize.length := by
  obtain ⟨es, h, b, -⟩ := putAll_holds hm ops (fun o ho => (hk o ho).1)
  have ok := h.keysAt (M := 2 ^ 63 - 1) (fun e he => by obtain ⟨o, ho, e'⟩ := b e he; have := (hk o ho).2; omega) hn
  exact Keys.unserialize_spec ok.wf ok.sorted (by have := ok.size; omega) (fun x hx => by have := ok.bounds x hx; omega) (stepByte_of ok hp) other mem a hmem

/-- A node with keys that are no progression, one with step 7, and a node of separators. -/
def exTree2 : Root Nat := putAll 4 [(5, 0), (1, 0), (20, 0)]
def exTree3 : Root Nat := putAll 4 [(1, 0), (8, 0), (15, 0), (22, 0), (29, 0)]
example : (exTree2.tree.keysAt []).map Keys.list = some [1, 5, 20] ∧
    (exTree2.tree.keysAt []).map (fun k => (Keys.unserialize Keys.empty (memAt0 k.serialize) 10 0).1.list) = some [1, 5, 20] := by decide +kernel
example : (exTree3.tree.keysAt []).map Keys.list = some [11] ∧ (exTree3.tree.keysAt [1]).map Keys.list = some [15, 22, 29] := by decide +kernel
example : ∀ s, 128 ≤ s → s < 256 → ¬ Progression s [1, 5, 20] := by
  rintro s h1 h2 ⟨a, n, h3, h4⟩
  obtain rfl : n = 3 := by simpa using (congrArg List.length h4).symm
  simp [List.range_succ] at h4
  omega

/-- **C32** fails for a step from 128 on: the step is read as a negative number, so the bytes of the values are taken for keys. -/
theorem C32_large_step_violated :
    ∃ l : Leaf Nat, (putAll 8 [(0, 10), (200, 20), (400, 30)]) = ⟨0, l⟩ ∧ l.keys.list = [0, 200, 400] ∧
      (Leaf.unserializeNums Keys.empty (memAt0 l.serializeNums) 0).keys.list = [0, 10, 20] := by
  refine ⟨⟨⟨3, 0, [200, 400], false, 1⟩, [10, 20, 30]⟩, rfl, ?_⟩
  decide +kernel

/-- **C32** also fails when a node that was read from disk is written again: the step of a sequence is written as 1 (node.cpp:140-144). -/
theorem C32_written_twice_violated :
    ∃ l : Leaf Nat, (putAll 8 [(0, 10), (2, 20), (4, 30)]) = ⟨0, l⟩ ∧
      let l' := Leaf.unserializeNums Keys.empty (memAt0 l.serializeNums) 0
      l'.keys.list = [0, 2, 4] ∧ (Leaf.unserializeNums Keys.empty (memAt0 l'.serializeNums) 0).keys.list = [0, 1, 2] := by
  refine ⟨⟨⟨3, 0, [2, 4], false, 1⟩, [10, 20, 30]⟩, rfl, ?_⟩
  decide +kernel

/-! ## C34 -/

theorem overlay_eq {old : List Coord} (h : Ordered old) {v : TermCoords} (hv : v.Fits) (h6 : ∀ c ∈ old, c.perm < 6) :
    coordsOf (addCoordinates old v) = overlay (coordsOf old) v := by
  have ho := addCoordinates_ordered h v
  funext p
  have hact : ((List.range p).any fun j => (v j).isSome) = true ↔ ∃ j, j < p ∧ v j ≠ none := by
    rw [List.any_eq_true]
    constructor
    · rintro ⟨j, h1, h2⟩
      exact ⟨j, List.mem_range.1 h1, by intro e; rw [e] at h2; simp at h2⟩
    · rintro ⟨j, h1, h2⟩
      refine ⟨j, List.mem_range.2 h1, ?_⟩
      cases e : v j with
      | none => exact absurd e h2
      | some x => rfl
  have key : ∀ x, coordsOf (addCoordinates old v) p = some x ↔ overlay (coordsOf old) v p = some x := by
    intro x
    rw [coordsOf_iff ho, addCoordinates_mem h]
    unfold After overlay
    by_cases hp : p < 6
    · rw [if_pos hp]
      cases e : v p with
      | some y => simp
      | none =>
        simp only
        by_cases ha : ((List.range p).any fun j => (v j).isSome) = true
        · rw [if_pos ha, coordsOf_iff h]
          have := hact.1 ha
          simp [this]
        · rw [if_neg ha]
          constructor
          · rintro (h' | ⟨-, h', -⟩)
            · simp at h'
            · exact absurd (hact.2 h') ha
          · simp
    · rw [if_neg hp]
      have e : v p = none := by
        cases e : v p with
        | none => rfl
        | some x => exact absurd (hv p x e).1 hp
      rw [e]
      simp only
      have hold : ⟨p, x⟩ ∉ old := fun hm => hp (h6 _ hm)
      constructor
      · intro hm; exact absurd hm hold
      · split
        · rw [coordsOf_iff h]; exact id
        · simp
  cases e : overlay (coordsOf old) v p with
  | some x => exact (key x).2 e
  | none =>
    cases e' : coordsOf (addCoordinates old v) p with
    | none => rfl
    | some x => rw [(key x).1 e'] at e; simp at e

/-- What the tree of coordinates keeps. -/
def GoodCoords (l : List Coord) : Prop := Ordered l ∧ ∀ c ∈ l, c.Fits

theorem goodCoords_add {old : List Coord} (h : GoodCoords old) {v : TermCoords} (hv : v.Fits) : GoodCoords (addCoordinates old v) := by
  refine ⟨addCoordinates_ordered h.1 v, fun c hc => ?_⟩
  have := (addCoordinates_mem h.1 v c.perm c.info).1 hc
  unfold After at this
  split at this
  · rcases this with e | ⟨-, -, e⟩
    · exact hv _ _ e
    · exact h.2 _ e
  · exact h.2 _ this

theorem putCoords_holds {m : Nat} (hm : 0 < m) (ops : List (Int × TermCoords)) (hk : ∀ o ∈ ops, 0 ≤ o.1) (hv : ∀ o ∈ ops, o.2.Fits) :
    ∃ es, (putCoords (2 * m) ops).Holds m es ∧ (∀ e ∈ es, GoodCoords e.2) ∧ (∀ e ∈ es, ∃ o ∈ ops, o.1 = e.1) ∧
      ∀ key, (BTree.find key es).map coordsOf = coordsAfter ops key := by
  obtain ⟨es, a, b, c⟩ := puts_holds (new := addCoordinates []) (upd := addCoordinates) hm ops hk (Root.empty_holds m)
  have hnil : GoodCoords [] := ⟨by simp [Ordered], by simp⟩
  obtain ⟨es', a', d⟩ := puts_all (new := addCoordinates []) (upd := addCoordinates) (P := GoodCoords) hm ops hk
    (fun o ho => ⟨goodCoords_add hnil (hv o ho), fun b hb => goodCoords_add hb (hv o ho)⟩) (Root.empty_holds m) (by simp)
  obtain rfl := Root.Holds.unique a a'
  refine ⟨es, a, d, fun e he => (b e he).resolve_left (by simp), fun key => ?_⟩
  rw [c]
  have : ∀ (ops : List (Int × TermCoords)) (acc : Option (List Coord)), (∀ o ∈ ops, o.2.Fits) → (∀ l, acc = some l → GoodCoords l) →
      (ops.foldl (fun acc o => if o.1 = key then some (acc.elim (addCoordinates [] o.2) fun b => addCoordinates b o.2) else acc) acc).map coordsOf =
        ops.foldl (fun acc o => if o.1 = key then some (overlay (acc.getD fun _ => none) o.2) else acc) (acc.map coordsOf) := by
    intro ops
    induction ops with
    | nil => intro acc _ _; rfl
    | cons o ops ih =>
      intro acc hv hacc
      rw [List.foldl_cons, List.foldl_cons]
      by_cases h : o.1 = key
      · rw [if_pos h, if_pos h]
        cases acc with
        | none =>
          rw [ih _ (fun x hx => hv x (by simp [hx])) (fun l hl => by rw [← Option.some.inj hl]; exact goodCoords_add hnil (hv o (by simp)))]
          simp only [Option.map_some, Option.elim_none, overlay_eq hnil.1 (hv o (by simp)) (by simp)]
          rfl
        | some l =>
          have hl := hacc l rfl
          rw [ih _ (fun x hx => hv x (by simp [hx])) (fun l' hl' => by rw [← Option.some.inj hl']; exact goodCoords_add hl (hv o (by simp)))]
          simp only [Option.map_some, Option.elim_some, overlay_eq hl.1 (hv o (by simp)) (fun c hc => (hl.2 c hc).1), Option.getD_some]
      · rw [if_neg h, if_neg h, ih _ (fun x hx => hv x (by simp [hx])) hacc]
  have h2 := this ops none hv (by simp)
  unfold coordsAfter
  simpa [BTree.find] using h2

theorem overlay_same {old v : TermCoords} (h : ∀ p j, old p ≠ none → j < p → v j ≠ none → v p ≠ none) : overlay old v = v := by
  funext p
  unfold overlay
  cases hvp : v p with
  | some x => rfl
  | none =>
    simp only
    by_cases ha : ((List.range p).any fun j => (v j).isSome) = true
    · rw [if_pos ha]
      rw [List.any_eq_true] at ha
      obtain ⟨j, j1, j2⟩ := ha
      cases hop : old p with
      | none => rfl
      | some x => exact absurd hvp (h p j (by rw [hop]; simp) (List.mem_range.1 j1) (by intro e; rw [e] at j2; simp at j2))
    · rw [if_neg ha]

/-- What `get` returns after any puts of coordinates: an exact description. -/
theorem C34_exact_partial (m : Nat) (hm : 0 < m) (ops : List (Int × TermCoords)) (hk : ∀ o ∈ ops, 0 ≤ o.1) (hv : ∀ o ∈ ops, o.2.Fits) (key : Int) :
    (putCoords (2 * m) ops).getCoords key = coordsAfter ops key := by
  obtain ⟨es, a, -, -, c⟩ := putCoords_holds hm ops hk hv
  unfold Root.getCoords
  rw [Root.get_spec a, c]

/-- **C34** (partial): after any puts, `get` of a key returns the coordinates put last, if the key is new, or if every permutation the
key had before, beyond the first permutation of the new coordinates, is also in the new ones.  The other keys keep what they have.
Missing: the other cases, in which the old coordinates of a permutation stay (`C34_replace_violated`, `C34_exact_partial`). -/
theorem C34_replace_partial (m : Nat) (hm : 0 < m) (ops : List (Int × TermCoords)) (hk : ∀ o ∈ ops, 0 ≤ o.1) (hv : ∀ o ∈ ops, o.2.Fits)
    (key : Int) (hkey : 0 ≤ key) (v : TermCoords) (hf : v.Fits)
    (hcover : ∀ old, (putCoords (2 * m) ops).getCoords key = some old → ∀ p j, old p ≠ none → j < p → v j ≠ none → v p ≠ none) :
    ((putCoords (2 * m) ops).putCoords (2 * m) key v).getCoords key = some v ∧
    ∀ k, k ≠ key → ((putCoords (2 * m) ops).putCoords (2 * m) key v).getCoords k = (putCoords (2 * m) ops).getCoords k := by
  have e : (putCoords (2 * m) ops).putCoords (2 * m) key v = putCoords (2 * m) (ops ++ [(key, v)]) := by simp [putCoords]
  have h1 : ∀ k, (putCoords (2 * m) (ops ++ [(key, v)])).getCoords k = coordsAfter (ops ++ [(key, v)]) k :=
    C34_exact_partial m hm _ (fun o ho => by
      rcases List.mem_append.1 ho with h | h
      · exact hk o h
      · rw [List.mem_singleton.1 h]; exact hkey) (fun o ho => by
      rcases List.mem_append.1 ho with h | h
      · exact hv o h
      · rw [List.mem_singleton.1 h]; exact hf)
  have h2 := C34_exact_partial m hm ops hk hv
  constructor
  · rw [e, h1]
    unfold coordsAfter
    rw [List.foldl_append, List.foldl_cons, List.foldl_nil, if_pos rfl]
    congr 1
    apply overlay_same
    intro p j ha
    rw [h2] at hcover
    unfold coordsAfter at hcover
    cases ho : ops.foldl (fun acc o => if o.1 = key then some (overlay (acc.getD fun _ => none) o.2) else acc) none with
    | none => rw [ho] at ha; exact absurd rfl ha
    | some old => rw [ho] at ha; exact hcover old ho p j ha
  · intro k hne
    rw [e, h1, h2]
    unfold coordsAfter
    rw [List.foldl_append, List.foldl_cons, List.foldl_nil, if_neg (fun h => hne h.symm)]

/-- Two sets of coordinates. -/
def exC0 : TermCoords := fun p => if p = 0 then some ⟨7, 1, 100, 3⟩ else none
def exC01 : TermCoords := fun p => if p = 0 then some ⟨5, 0, 20, 1⟩ else if p = 1 then some ⟨6, 2, 30, 2⟩ else none

theorem exC0_fits : exC0.Fits := by
  intro p x h
  unfold exC0 at h
  split at h
  · cases h; subst p; decide
  · simp at h
theorem exC01_fits : exC01.Fits := by
  intro p x h
  unfold exC01 at h
  split at h
  · cases h; subst p; decide
  · split at h
    · cases h; subst p; decide
    · simp at h

/-- The hypotheses of `C34_replace_partial`: the coordinates of key 7 are replaced by more of them. -/
example : ∀ old, (putCoords 4 [(7, exC0), (3, exC01)]).getCoords 7 = some old → ∀ p j, old p ≠ none → j < p → exC01 j ≠ none → exC01 p ≠ none := by
  intro old h p j h1 h2 h3
  have e : (putCoords 4 [(7, exC0), (3, exC01)]).getCoords 7 = some (coordsOf [⟨0, ⟨7, 1, 100, 3⟩⟩]) := rfl
  rw [e] at h
  cases h
  have : p = 0 := by
    by_cases hp : p = 0
    · exact hp
    · simp [coordsOf, hp] at h1
  omega

/-- **C34** fails: the coordinates of permutation 1 stay although they are not among the new ones. -/
theorem C34_replace_violated : ((((putCoords 4 [(7, exC01)]).putCoords 4 7 exC0).getCoords 7).map fun c => c 1) = some (some ⟨6, 2, 30, 2⟩) ∧ exC0 1 = none := by
  decide +kernel

/-! ## C33 -/

theorem vals_mem {β : Type} {l : Leaf β} {lo hi : Int} (ok : LeafOk l lo hi) {x : β} (hx : x ∈ l.vals) : ∃ k, (k, x) ∈ l.entries := by
  obtain ⟨i, hi, rfl⟩ := List.mem_iff_getElem.1 hx
  obtain ⟨v, hv1, hv2⟩ := entries_cons ok.len (i := i) (by rw [← ok.len]; exact hi)
  rw [List.getElem?_eq_getElem hi] at hv1
  cases hv1
  exact ⟨_, List.mem_of_mem_drop (i := i) (by rw [hv2]; exact List.mem_cons_self)⟩

theorem leaf_keys {β : Type} {l : Leaf β} {max : Nat} {M : Int} (ok : LeafOk l (-1) M) (hM : M < 2 ^ 63) (hsz : l.keys.size ≤ max) (hmax : max < 2 ^ 31)
    (hp : ∀ s, 128 ≤ s → s < 256 → ¬ Progression s l.keys.list) (other : Keys) {mem : Mem} {a : Nat} (hmem : Placed mem a l.keys.serialize) :
    (Keys.unserialize other mem 10 a).1.list = l.keys.list ∧ (Keys.unserialize other mem 10 a).1.size = l.vals.length ∧
      (Keys.unserialize other mem 10 a).2 = a + l.keys.serialize.length := by
  have nok : NodeOk l.keys max (-1) M := ⟨ok.wf, ok.sorted, hsz, ok.bounds⟩
  obtain ⟨K1, K2⟩ := Keys.unserialize_spec ok.wf ok.sorted (by omega) (fun x hx => by have := ok.bounds x hx; omega) (stepByte_of nok hp) other mem a hmem
  refine ⟨K1, ?_, K2⟩
  rw [← Keys.list_length, K1, Keys.list_length, ok.len]

theorem withLines_spec {l : Leaf (List Coord)} (hg : ∀ x ∈ l.vals, GoodCoords x) {vb : List UInt8} (hsv : serializeValues l.vals = some vb) {mem : Mem} {b : Nat} (hmem : Placed mem b vb)
    (r : Keys × Nat) (K1 : r.1.list = l.keys.list) (K2 : r.1.size = l.vals.length) (K3 : r.2 = b) :
    (Leaf.withLines mem r).keys.list = l.keys.list ∧ (Leaf.withLines mem r).vals = l.vals := by
  unfold Leaf.withLines
  dsimp only
  rw [K2, K3]
  refine ⟨K1, ?_⟩
  apply List.ext_getElem
  · simp
  · intro i h1 h2
    rw [List.getElem_map, List.getElem_range]
    exact parseInternalLine_spec hg hsv hmem h2

theorem withNums_spec {l : Leaf Nat} (hg : ∀ x ∈ l.vals, x < 2 ^ 64) {mem : Mem} {b : Nat} (hmem : Placed mem b (l.vals.flatMap encV))
    (r : Keys × Nat) (K1 : r.1.list = l.keys.list) (K2 : r.1.size = l.vals.length) (K3 : r.2 = b) :
    (Leaf.withNums mem r).keys.list = l.keys.list ∧ (Leaf.withNums mem r).vals = l.vals := by
  unfold Leaf.withNums
  dsimp only
  rw [K2, K3]
  refine ⟨K1, ?_⟩
  rw [readOffs_spec mem l.vals _ hmem (fun x hx => encV_length_64 (hg x hx))]
  rw [List.map_map]
  exact (List.map_congr_left (fun x _ => by simp)).trans (List.map_id _)

theorem leaf_coords {l : Leaf (List Coord)} {max : Nat} {M : Int} (ok : LeafOk l (-1) M) (hM : M < 2 ^ 63) (hsz : l.keys.size ≤ max) (hmax : max < 2 ^ 31)
    (hg : ∀ x ∈ l.vals, GoodCoords x) (hp : ∀ s, 128 ≤ s → s < 256 → ¬ Progression s l.keys.list) {bs : List UInt8} (hs : l.serialize = some bs)
    (other : Keys) {mem : Mem} {a : Nat} (hmem : Placed mem a bs) :
    (Leaf.unserialize other mem a).keys.list = l.keys.list ∧ (Leaf.unserialize other mem a).vals = l.vals := by
  unfold Leaf.serialize at hs
  cases hsv : serializeValues l.vals with
  | none => rw [hsv] at hs; exact absurd hs (by simp)
  | some vb =>
    rw [hsv] at hs
    have hs : l.keys.serialize ++ vb = bs := Option.some.inj hs
    subst hs
    rw [placed_append] at hmem
    obtain ⟨K1, K2, K3⟩ := leaf_keys ok hM hsz hmax hp other hmem.1
    unfold Leaf.unserialize
    exact withLines_spec hg hsv hmem.2 _ K1 K2 K3

theorem leaf_nums {l : Leaf Nat} {max : Nat} {M : Int} (ok : LeafOk l (-1) M) (hM : M < 2 ^ 63) (hsz : l.keys.size ≤ max) (hmax : max < 2 ^ 31)
    (hg : ∀ x ∈ l.vals, x < 2 ^ 64) (hp : ∀ s, 128 ≤ s → s < 256 → ¬ Progression s l.keys.list)
    (other : Keys) {mem : Mem} {a : Nat} (hmem : Placed mem a l.serializeNums) :
    (Leaf.unserializeNums other mem a).keys.list = l.keys.list ∧ (Leaf.unserializeNums other mem a).vals = l.vals := by
  unfold Leaf.serializeNums at hmem
  rw [placed_append] at hmem
  obtain ⟨K1, K2, K3⟩ := leaf_keys ok hM hsz hmax hp other hmem.1
  unfold Leaf.unserializeNums
  exact withNums_spec hg hmem.2 _ K1 K2 K3

theorem exists_bound {β : Type} (ops : List (Int × β)) (h : ∀ o ∈ ops, o.1 < 2 ^ 63) : ∃ M : Int, M < 2 ^ 63 ∧ ∀ o ∈ ops, o.1 ≤ M :=
  ⟨2 ^ 63 - 1, by omega, fun o ho => by have := h o ho; omega⟩

/-- **C33** (partial): if the coordinates of a leaf of a tree (after any puts) are written, they are read back: the same keys and for each of them
the same list of coordinates.  The keys are not a progression with a step from 128 to 255 (see C32).
Missing: leaves with more than 65535 bytes of coordinates, the process exits when it should write them (`C33_large_leaf_violated`). -/
theorem C33_coords_partial (m : Nat) (hm : 0 < m) (hm2 : m < 2 ^ 29) (ops : List (Int × TermCoords)) (hk : ∀ o ∈ ops, 0 ≤ o.1 ∧ o.1 < 2 ^ 63) (hv : ∀ o ∈ ops, o.2.Fits)
    (path : List Nat) (l : Leaf (List Coord)) (hl : (putCoords (2 * m) ops).tree.leafAt path = some l) (hp : ∀ s, 128 ≤ s → s < 256 → ¬ Progression s l.keys.list)
    (bs : List UInt8) (hs : l.serialize = some bs) (other : Keys) (mem : Mem) (a : Nat) (hmem : Placed mem a bs) :
    (Leaf.unserialize other mem a).keys.list = l.keys.list ∧ (Leaf.unserialize other mem a).vals = l.vals := by
  obtain ⟨es, h, hgood, b, -⟩ := putCoords_holds hm ops (fun o ho => (hk o ho).1) hv
  obtain ⟨M, hM, hle⟩ := exists_bound ops (fun o ho => (hk o ho).2)
  obtain ⟨ok, hsz, hmemE⟩ := h.leafAt (M := M) (fun e he => by obtain ⟨o, ho, e'⟩ := b e he; have := hle o ho; omega) hl
  exact leaf_coords ok hM hsz (by omega) (fun x hx => by obtain ⟨k, hk⟩ := vals_mem ok hx; exact hgood _ (hmemE _ hk)) hp hs other hmem

/-- **C33** (partial): the same for leaves with numbers. -/
theorem C33_numbers_partial (m : Nat) (hm : 0 < m) (hm2 : m < 2 ^ 29) (ops : List (Int × Nat)) (hk : ∀ o ∈ ops, 0 ≤ o.1 ∧ o.1 < 2 ^ 63 ∧ o.2 < 2 ^ 64)
    (path : List Nat) (l : Leaf Nat) (hl : (putAll (2 * m) ops).tree.leafAt path = some l) (hp : ∀ s, 128 ≤ s → s < 256 → ¬ Progression s l.keys.list)
    (other : Keys) (mem : Mem) (a : Nat) (hmem : Placed mem a l.serializeNums) :
    (Leaf.unserializeNums other mem a).keys.list = l.keys.list ∧ (Leaf.unserializeNums other mem a).vals = l.vals := by
  obtain ⟨es, h, b, c⟩ := putAll_holds hm ops (fun o ho => (hk o ho).1)
  obtain ⟨M, hM, hle⟩ := exists_bound ops (fun o ho => (hk o ho).2.1)
  obtain ⟨ok, hsz, hmemE⟩ := h.leafAt (M := M) (fun e he => by obtain ⟨o, ho, e'⟩ := b e he; have := hle o ho; omega) hl
  refine leaf_nums ok hM hsz (by omega) (fun x hx => ?_) hp other hmem
  obtain ⟨k, hk'⟩ := vals_mem ok hx
  have hlast := (mem_iff_find h.sorted _ _).1 (hmemE _ hk')
  rw [c] at hlast
  obtain ⟨o, ho, e⟩ := Option.map_eq_some_iff.1 hlast
  have hin := (List.mem_filter.1 (List.mem_of_getLast? ho)).1
  have := (hk o hin).2.2
  rw [← e]
  exact this

/-- The hypotheses of `C33_coords_partial` hold for a leaf with the keys 3 and 7; this is what it is. -/
def exLeaf : Leaf (List Coord) := ⟨⟨2, 3, [4], false, 1⟩, [[⟨0, ⟨5, 0, 20, 1⟩⟩, ⟨1, ⟨6, 2, 30, 2⟩⟩], [⟨0, ⟨7, 1, 100, 3⟩⟩]]⟩
example : (putCoords 4 [(7, exC0), (3, exC01)]).tree.leafAt [] = some exLeaf := by rfl
example : exLeaf.keys.list = [3, 7] ∧ exLeaf.serialize.isSome = true ∧ (Leaf.unserialize Keys.empty (memAt0 (exLeaf.serialize.getD [])) 0).vals = exLeaf.vals := by
  decide +kernel

theorem fill (max n : Nat) (v : TermCoords) (h : n ≤ max) :
    putCoords max ((List.range n).map fun (i : Nat) => ((i : Int), v)) = ⟨0, (⟨⟨n, 0, [], true, 1⟩, List.replicate n (addCoordinates [] v)⟩ : Leaf (List Coord))⟩ := by
  induction n with
  | zero => rfl
  | succ n ih =>
    have e : putCoords max ((List.range (n + 1)).map fun (i : Nat) => ((i : Int), v)) = (putCoords max ((List.range n).map fun (i : Nat) => ((i : Int), v))).putCoords max n v := by
      rw [List.range_succ]; simp [putCoords]
    rw [e, ih (by omega)]
    have hp : Keys.pos ⟨n, 0, [], true, 1⟩ (n : Int) = .ins n := by
      unfold Keys.pos
      by_cases h0 : n = 0
      · subst h0; rfl
      · rw [if_neg (by simp; omega), if_pos rfl, if_neg (by simp)]
    have hk : Keys.putkeyAt ⟨n, 0, [], true, 1⟩ n n = ⟨n + 1, 0, [], true, 1⟩ := by
      unfold Keys.putkeyAt
      by_cases h0 : n = 0
      · subst h0; rfl
      · rw [if_neg h0, if_pos rfl, if_neg (by simp)]
    show Root.grow (d := 0) (Leaf.put (addCoordinates []) addCoordinates max ⟨⟨n, 0, [], true, 1⟩, List.replicate n (addCoordinates [] v)⟩ n v) = _
    unfold Leaf.put
    simp only
    rw [hp]
    simp only
    rw [if_neg (by omega)]
    unfold Leaf.insert
    simp only
    rw [hp]
    simp only
    rw [hk]
    unfold insertAt
    rw [List.take_of_length_le (by simp), List.drop_of_length_le (by simp), ← List.replicate_succ']
    rfl

/-- Coordinates of a term with one entry in each order, at positions from 2^28 on. -/
def exFull : TermCoords := fun p => if p < 6 then some ⟨1, 0, 2 ^ 28, 0⟩ else none

theorem diffAt_replicate (n i : Nat) (h : i ≤ n) (x : List Coord) : diffAt (List.replicate n x) i = 4 + i * (x.flatMap Coord.bytes).length := by
  unfold diffAt
  rw [List.take_replicate, Nat.min_eq_left h]
  congr 1
  clear h
  induction i with
  | zero => simp
  | succ i ih => rw [List.replicate_succ, List.flatMap_cons, List.length_append, ih, Nat.succ_mul]; omega

theorem serialize_replicate (k : Keys) (n : Nat) (x : List Coord) (h : 65535 < 4 + n * (x.flatMap Coord.bytes).length) :
    Leaf.serialize ⟨k, List.replicate (n + 1) x⟩ = none := by
  unfold Leaf.serialize serializeValues
  rw [if_neg]
  · rfl
  · intro hall
    rw [List.all_eq_true] at hall
    have := hall n (by rw [List.length_replicate, List.mem_range]; omega)
    rw [diffAt_replicate (n + 1) n (by omega)] at this
    have := of_decide_eq_true this
    omega

/-- **C33** fails for large leaves: with the default capacity of 2048 keys (root.cpp:48), a leaf whose keys are in all six orders, at
positions of five bytes, cannot be written; the process exits. -/
theorem C33_large_leaf_violated : ∃ l : Leaf (List Coord), putCoords 2048 ((List.range 2048).map fun (i : Nat) => ((i : Int), exFull)) = ⟨0, l⟩ ∧ l.serialize = none := by
  have hlen : ((addCoordinates [] exFull).flatMap Coord.bytes).length = 48 := by decide +kernel
  exact ⟨_, fill 2048 2048 exFull (Nat.le_refl _), serialize_replicate _ 2047 _ (by rw [hlen]; omega)⟩

end Trident
