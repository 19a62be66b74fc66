import Verif.Flat.Model
import Verif.Load.LoaderProofs
/-! Helper proofs for the flat tree (no property statements here). -/
namespace Trident.Flat
open Load

theorem encLE_length (w n : Nat) : (encLE w n).length = w := by simp [encLE]

theorem decLE_enc {w n : Nat} (h : n < 256 ^ w) : decLE (encLE w n) = n := by
  unfold decLE encLE
  rw [List.reverse_reverse, decBE_enc h]

/-! ## Segments -/

/-- The blocks of the terms from `a` to `b - 1`. -/
def seg (F : Nat → List UInt8) (a b : Nat) : List UInt8 := (List.range (b - a)).flatMap fun i => F (a + i)

theorem seg_self (F : Nat → List UInt8) (a : Nat) : seg F a a = [] := by simp [seg]

theorem seg_append (F : Nat → List UInt8) {a b c : Nat} (h : a ≤ b) (h' : b ≤ c) : seg F a b ++ seg F b c = seg F a c := by
  unfold seg
  have e : c - a = (b - a) + (c - b) := by omega
  rw [e, List.range_add, List.flatMap_append, List.flatMap_map]
  congr 2
  funext i
  have : b + i = a + (b - a + i) := by omega
  rw [this]

theorem seg_one (F : Nat → List UInt8) (a : Nat) : seg F a (a + 1) = F a := by
  unfold seg
  have e : a + 1 - a = 1 := by omega
  rw [e]
  simp [List.range_succ]

theorem flatMap_ext {α β : Type} {l : List α} {f g : α → List β} (h : ∀ x ∈ l, f x = g x) : l.flatMap f = l.flatMap g := by
  induction l with
  | nil => rfl
  | cons a l ih =>
    rw [List.flatMap_cons, List.flatMap_cons, h a (by simp), ih fun x hx => h x (by simp [hx])]

theorem seg_congr {F G : Nat → List UInt8} {a b : Nat} (h : ∀ k, a ≤ k → k < b → F k = G k) : seg F a b = seg G a b := by
  unfold seg
  exact flatMap_ext fun i hi => h _ (by omega) (by rw [List.mem_range] at hi; omega)

theorem blanks_eq (K : Kind) (a b : Nat) : blanks K a b = seg (blank K) a b := rfl

theorem block_zero (K : Kind) (junk) (k : Nat) {cs : Nat → Option TreeEl} (h : count cs 3 = 0) (e e' : Entry) : block K junk k cs e = block K junk k cs e' := by
  unfold block
  congr 1
  refine flatMap_ext fun p _ => ?_
  by_cases hp : p = 3
  · rw [if_pos hp, if_pos hp]
    unfold slot
    rw [if_neg (by omega), if_neg (by omega)]
  · rw [if_neg hp, if_neg hp]

/-! ## The first permutation -/

section
variable {K : Kind} {junk : Nat → Nat → List UInt8} {F : Nat → List UInt8} {ent : Nat → Entry}

/-- What is known of the entries of the tree that are left, from the term `next` on. -/
structure Left (K : Kind) (junk : Nat → Nat → List UInt8) (F : Nat → List UInt8) (ent : Nat → Entry) (es : List Entry) (items : List Item) (next : Nat) : Prop where
  sorted : (items.map (·.1)).Pairwise (· < ·)
  ge : ∀ x ∈ items, next ≤ x.1
  es_sorted : (es.map (·.key)).Pairwise (· < ·)
  sub : ∀ e ∈ es, e.key ∈ items.map (·.1)
  sop : ∀ x ∈ items, (x.2 3).isSome = true ↔ x.1 ∈ es.map (·.key)
  some : ∀ x ∈ items, ∃ p ∈ K.perms, count x.2 p ≠ 0
  osp : K ≠ .labeled → ∀ x ∈ items, x.2 3 = none → (x.2 4).isSome = true
  hole : ∀ k, next ≤ k → k ∉ items.map (·.1) → F k = blank K k
  full : ∀ x ∈ items, F x.1 = block K junk x.1 x.2 (ent x.1)
  ent : ∀ e ∈ es, ent e.key = e

theorem count_none {cs : Nat → Option TreeEl} {p : Nat} (h : cs p = none) : count cs p = 0 := by simp [count, h]

theorem Left.tail {es : List Entry} {x : Item} {items : List Item} {next : Nat} (h : Left K junk F ent es (x :: items) next) (hx : x.1 ∉ es.map (·.key)) :
    Left K junk F ent es items (x.1 + 1) := by
  have hs := List.pairwise_cons.1 (by simpa using h.sorted : (x.1 :: items.map (·.1)).Pairwise (· < ·))
  have hlt : ∀ y ∈ items, x.1 < y.1 := fun y hy => hs.1 _ (List.mem_map.2 ⟨y, hy, rfl⟩)
  refine ⟨hs.2, fun y hy => hlt y hy, h.es_sorted, ?_, fun y hy => h.sop y (by simp [hy]), fun y hy => h.some y (by simp [hy]),
    fun hk y hy => h.osp hk y (by simp [hy]), ?_, fun y hy => h.full y (by simp [hy]), h.ent⟩
  · intro e he
    have := h.sub e he
    rw [List.map_cons, List.mem_cons] at this
    rcases this with this | this
    · exact absurd (List.mem_map.2 ⟨e, he, this⟩) hx
    · exact this
  · intro k hk hki
    have := h.ge x (by simp)
    refine h.hole k (by omega) ?_
    rw [List.map_cons, List.mem_cons]
    rintro (rfl | hc)
    · omega
    · exact hki hc

theorem Left.take {e : Entry} {es : List Entry} {x : Item} {items : List Item} {next : Nat} (h : Left K junk F ent (e :: es) (x :: items) next) (hx : x.1 = e.key) :
    Left K junk F ent es items (x.1 + 1) := by
  have hs := List.pairwise_cons.1 (by simpa using h.sorted : (x.1 :: items.map (·.1)).Pairwise (· < ·))
  have hes := List.pairwise_cons.1 (by simpa using h.es_sorted : (e.key :: es.map (·.key)).Pairwise (· < ·))
  have hlt : ∀ y ∈ items, x.1 < y.1 := fun y hy => hs.1 _ (List.mem_map.2 ⟨y, hy, rfl⟩)
  refine ⟨hs.2, fun y hy => hlt y hy, hes.2, ?_, ?_, fun y hy => h.some y (by simp [hy]),
    fun hk y hy => h.osp hk y (by simp [hy]), ?_, fun y hy => h.full y (by simp [hy]), fun e' he' => h.ent e' (by simp [he'])⟩
  · intro e' he'
    have := h.sub e' (by simp [he'])
    rw [List.map_cons, List.mem_cons] at this
    rcases this with this | this
    · have := hes.1 e'.key (List.mem_map.2 ⟨e', he', rfl⟩)
      omega
    · exact this
  · intro y hy
    rw [h.sop y (by simp [hy]), List.map_cons, List.mem_cons]
    have := hlt y hy
    constructor
    · rintro (h' | h')
      · omega
      · exact h'
    · exact .inr
  · intro k hk hki
    have := h.ge x (by simp)
    refine h.hole k (by omega) ?_
    rw [List.map_cons, List.mem_cons]
    rintro (rfl | hc)
    · omega
    · exact hki hc

theorem Left.before {es : List Entry} {x : Item} {items : List Item} {next : Nat} (h : Left K junk F ent es (x :: items) next) :
    blanks K next x.1 = seg F next x.1 := by
  rw [blanks_eq]
  refine seg_congr fun k h1 h2 => (h.hole k h1 ?_).symm
  have hs := List.pairwise_cons.1 (by simpa using h.sorted : (x.1 :: items.map (·.1)).Pairwise (· < ·))
  rw [List.map_cons, List.mem_cons]
  rintro (rfl | hc)
  · omega
  · have := hs.1 _ hc
    omega

theorem walk_spec {e : Entry} {es : List Entry} : ∀ {items : List Item} {next : Nat}, Left K junk F ent (e :: es) items next →
    ∃ cs items', walk K junk e.key items next = some (seg F next e.key, cs, items', e.key + 1) ∧ F e.key = block K junk e.key cs e ∧
      next ≤ e.key ∧ Left K junk F ent es items' (e.key + 1) ∧ ∃ pre, items = pre ++ (e.key, cs) :: items' := by
  intro items
  induction items with
  | nil =>
    intro next h
    have := h.sub e (by simp)
    simp at this
  | cons x items ih =>
    intro next h
    obtain ⟨k, cs⟩ := x
    have hge := h.ge (k, cs) (by simp)
    simp only at hge
    have hes := List.pairwise_cons.1 (by simpa using h.es_sorted : (e.key :: es.map (·.key)).Pairwise (· < ·))
    have hs := List.pairwise_cons.1 (by simpa using h.sorted : (k :: items.map (·.1)).Pairwise (· < ·))
    have hle : k ≤ e.key := by
      have := h.sub e (by simp)
      rw [List.map_cons, List.mem_cons] at this
      rcases this with this | this
      · simp only at this; omega
      · exact Nat.le_of_lt (hs.1 _ this)
    have hz : ¬ (K = .labeled ∧ ∀ p ∈ K.perms, count cs p = 0) := by
      rintro ⟨-, hz⟩
      obtain ⟨p, hp, hne⟩ := h.some (k, cs) (by simp)
      exact hne (hz p hp)
    rw [walk, if_neg (by omega), if_neg hz, if_neg (by omega)]
    have hb := h.before
    simp only at hb
    by_cases hk : k < e.key
    · rw [if_pos hk]
      have hnot : k ∉ (e :: es).map (·.key) := by
        rw [List.map_cons, List.mem_cons]
        rintro (h' | h')
        · omega
        · have := hes.1 _ h'
          omega
      obtain ⟨cs', items', h1, h2, h3, h4, h5⟩ := ih (h.tail hnot)
      have hc : count cs 3 = 0 := count_none (by
        have := h.sop (k, cs) (by simp)
        cases hc : cs 3 with
        | none => rfl
        | some v => exact absurd (this.1 (by simp [hc])) hnot)
      have hf := h.full (k, cs) (by simp)
      simp only at hf h1 h3
      refine ⟨cs', items', ?_, h2, by omega, h4, ?_⟩
      · rw [h1, Option.map_some, hb, block_zero K junk k hc ⟨k, 0, 0, 0⟩ (ent k), ← hf, List.append_assoc]
        refine congrArg some (Prod.ext ?_ rfl)
        show seg F next k ++ (F k ++ seg F (k + 1) e.key) = seg F next e.key
        rw [← seg_one F k, seg_append F (Nat.le_succ k) h3, seg_append F hge hle]
      · obtain ⟨pre, hpre⟩ := h5
        exact ⟨(k, cs) :: pre, by rw [hpre]; rfl⟩
    · rw [if_neg hk]
      have hke : k = e.key := by omega
      refine ⟨cs, items, ?_, ?_, by omega, ?_, ?_⟩
      · rw [hb, hke]
      · rw [← hke, h.full (k, cs) (by simp)]
        simp only
        rw [hke, h.ent e (by simp)]
      · have := h.take (x := (k, cs)) hke
        simp only at this
        rw [hke] at this
        exact this
      · exact ⟨[], by rw [hke]; rfl⟩

/-- One more than the largest term. -/
def top (items : List Item) (next : Nat) : Nat := items.getLast?.elim next fun x => x.1 + 1

theorem top_le {es : List Entry} {items : List Item} {next : Nat} (h : Left K junk F ent es items next) : next ≤ top items next := by
  unfold top
  cases hl : items.getLast? with
  | none => simp
  | some x =>
    have := h.ge x (List.mem_of_getLast? hl)
    simp only [Option.elim_some]
    omega

theorem top_cons (x : Item) (items : List Item) (next : Nat) : top (x :: items) next = top items (x.1 + 1) := by
  unfold top
  cases items with
  | nil => simp
  | cons y l =>
    rw [List.getLast?_cons_cons]
    cases hy : (y :: l).getLast? with
    | none => simp at hy
    | some z => rfl

theorem top_append (pre : List Item) (x : Item) (items : List Item) : ∀ next, top (pre ++ x :: items) next = top items (x.1 + 1) := by
  induction pre with
  | nil => exact fun next => top_cons x items next
  | cons y pre ih =>
    intro next
    rw [List.cons_append, top_cons, ih]

theorem last_spec : ∀ {items : List Item} {next : Nat}, Left K junk F ent [] items next → lastLoop K junk items next = some (seg F next (top items next)) := by
  intro items
  induction items with
  | nil => intro next _; simp [lastLoop, top, seg_self]
  | cons x items ih =>
    intro next h
    obtain ⟨k, cs⟩ := x
    have hge := h.ge (k, cs) (by simp)
    have hc : cs 3 = none := by
      have := h.sop (k, cs) (by simp)
      simp only [List.map_nil, List.not_mem_nil, iff_false] at this
      cases hc : cs 3 with
      | none => rfl
      | some v => rw [hc] at this; simp at this
    have hb := h.before
    have hf := h.full (k, cs) (by simp)
    simp only at hge hb hf
    have h1 := ih (h.tail (by simp))
    have hcs : (fun p => if p = 3 then none else cs p) = cs := by
      funext p
      by_cases hp : p = 3
      · rw [if_pos hp, hp, hc]
      · rw [if_neg hp]
    have ho : ¬ (K ≠ .labeled ∧ cs 4 = none) := by
      rintro ⟨hk, h4⟩
      have := h.osp hk (k, cs) (by simp) hc
      simp [h4] at this
    have hm : max next k + 1 = k + 1 := by omega
    have htop : top ((k, cs) :: items) next = top items (k + 1) := top_cons _ _ _
    have htl := top_le (h.tail (by simp))
    simp only at h1 htl
    rw [lastLoop, if_neg (by simp [hc]), if_neg ho, hm, h1, Option.map_some, hcs, hb, block_zero K junk k (count_none hc) ⟨k, 0, 0, 0⟩ (ent k), ← hf, htop,
      List.append_assoc]
    congr 1
    rw [← seg_one F k, seg_append F (Nat.le_succ k) htl, seg_append F hge (by omega)]

theorem first_spec : ∀ {es : List Entry} {items : List Item} {next : Nat}, Left K junk F ent es items next →
    ((firstLoop K junk es items next).bind fun r => (lastLoop K junk r.2.1 r.2.2).map fun q => r.1 ++ q) = some (seg F next (top items next)) := by
  intro es
  induction es with
  | nil =>
    intro items next h
    rw [firstLoop, Option.bind_some, last_spec h]
    simp
  | cons e es ih =>
    intro items next h
    obtain ⟨cs, items', h1, h2, h3, h4, h5⟩ := walk_spec h
    have h6 := ih h4
    have htop : top items next = top items' (e.key + 1) := by
      obtain ⟨pre, hpre⟩ := h5
      rw [hpre, top_append]
    rw [firstLoop, h1]
    simp only [Option.bind_some]
    have htl := top_le h4
    cases hq : firstLoop K junk es items' (e.key + 1) with
    | none => rw [hq] at h6; simp at h6
    | some q =>
      rw [hq] at h6
      simp only [Option.bind_some, Option.map_some] at h6 ⊢
      cases hl : lastLoop K junk q.2.1 q.2.2 with
      | none => rw [hl] at h6; simp at h6
      | some l =>
        rw [hl] at h6
        simp only [Option.map_some, Option.some.injEq] at h6 ⊢
        rw [htop, ← h2, List.append_assoc, List.append_assoc, h6, ← seg_one F e.key, seg_append F (Nat.le_succ _) htl, seg_append F h3 (by omega)]

end
end Trident.Flat
