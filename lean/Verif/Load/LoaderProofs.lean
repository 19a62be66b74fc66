import Verif.Load.Loader
import Verif.Load.InserterProofs
import Verif.Query.KBProofs
import Verif.Props.Strat
import Verif.Props.Term
/-! Helper proofs for the loader (no property statements here). -/
namespace Trident.Load
open Strat

/-! ## Merging coordinates -/

/-- The record of a key. -/
def rec? (k : Nat) (l : List TreeEl) : Option TreeEl := l.find? fun e => e.key = k

/-- The records after a key. -/
def after (k : Nat) (l : List TreeEl) : List TreeEl := l.filter fun e => k < e.key

/-- Keys strictly increasing. -/
def KeySorted (l : List TreeEl) : Prop := (l.map (·.key)).Pairwise (· < ·)

theorem KeySorted.cons {e : TreeEl} {l} (h : KeySorted (e :: l)) : (∀ x ∈ l, e.key < x.key) ∧ KeySorted l := by
  rw [KeySorted, List.map_cons, List.pairwise_cons] at h
  exact ⟨fun x hx => h.1 _ (List.mem_map.2 ⟨x, hx, rfl⟩), h.2⟩

theorem after_eq_self {k : Nat} {l : List TreeEl} (h : ∀ e ∈ l, k < e.key) : after k l = l := by
  unfold after
  rw [List.filter_eq_self]
  intro e he
  simpa using h e he

theorem rec_none {k : Nat} {l : List TreeEl} (h : ∀ e ∈ l, e.key ≠ k) : rec? k l = none := by
  unfold rec?
  rw [List.find?_eq_none]
  intro e he
  simpa using h e he

theorem rec_some {k : Nat} {l : List TreeEl} (hs : KeySorted l) {e} : rec? k l = some e ↔ e ∈ l ∧ e.key = k := by
  constructor
  · intro h
    exact ⟨List.mem_of_find?_eq_some h, by have := List.find?_some h; simpa using this⟩
  · rintro ⟨h, hk⟩
    induction l with
    | nil => simp at h
    | cons x l ih =>
      unfold rec?
      rcases List.mem_cons.1 h with rfl | h
      · rw [List.find?_cons_of_pos (by simpa using hk)]
      · have := hs.cons.1 e h
        rw [List.find?_cons_of_neg (by simp; omega)]
        exact ih hs.cons.2 h

theorem take1_eq {k : Nat} {l : List TreeEl} (hs : KeySorted l) (h : ∀ e ∈ l, k ≤ e.key) :
    take1 k l = (rec? k l, after k l) := by
  cases l with
  | nil => rfl
  | cons e l =>
    have hc := hs.cons
    by_cases hk : e.key = k
    · have h1 : rec? k (e :: l) = some e := by
        unfold rec?; rw [List.find?_cons_of_pos (by simpa using hk)]
      have h2 : after k (e :: l) = l := by
        unfold after
        rw [List.filter_cons_of_neg (by simp; omega)]
        exact after_eq_self fun x hx => by have := hc.1 x hx; omega
      rw [take1, if_pos hk, h1, h2]
    · have he := h e (by simp)
      have hall : ∀ x ∈ e :: l, k < x.key := by
        intro x hx
        rcases List.mem_cons.1 hx with rfl | hx
        · omega
        · have := hc.1 x hx; omega
      rw [take1, if_neg hk, after_eq_self hall, rec_none fun x hx => by have := hall x hx; omega]

/-- Keys of the second are keys of the first. -/
def SubKeys (b a : List TreeEl) : Prop := ∀ e ∈ b, ∃ x ∈ a, x.key = e.key

theorem after_of_rec_none {k : Nat} {a : List TreeEl} (ha : KeySorted a) (h : ∀ e ∈ a, k ≤ e.key) (hr : rec? k a = none) :
    after k a = a := after_eq_self fun e he => by
  have := h e he
  have : e.key ≠ k := fun e1 => by
    have := (rec_some ha (k := k) (e := e)).2 ⟨he, e1⟩
    rw [hr] at this; simp at this
  omega

theorem takePair_eq {k : Nat} {a b : List TreeEl} (ha : KeySorted a) (hb : KeySorted b) (hsub : SubKeys b a)
    (h : ∀ e ∈ a, k ≤ e.key) : takePair k a b = ((rec? k a, rec? k b), after k a, after k b) := by
  have hb' : ∀ e ∈ b, k ≤ e.key := by
    intro e he
    obtain ⟨x, hx, e'⟩ := hsub e he
    have := h x hx; omega
  unfold takePair
  rw [take1_eq ha h]
  cases hr : rec? k a with
  | some e => simp only [take1_eq hb hb']
  | none =>
    have hne : ∀ e ∈ b, e.key ≠ k := by
      intro e he e1
      obtain ⟨x, hx, e'⟩ := hsub e he
      have := (rec_some ha (k := k) (e := x)).2 ⟨hx, by omega⟩
      rw [hr] at this; simp at this
    simp only
    have hb2 : after k b = b := after_eq_self fun e he => by have := hb' e he; have := hne e he; omega
    rw [rec_none hne, hb2, after_of_rec_none ha h hr]

/-- The records of the permutations: sorted, the ones of 3-5 for keys of 0-2 only. -/
structure MOk (s : Nat → List TreeEl) : Prop where
  sorted : ∀ i, KeySorted (s i)
  sub : ∀ i, i < 3 → SubKeys (s (i + 3)) (s i)
  rest : ∀ i, 6 ≤ i → s i = []

theorem MOk.after {s : Nat → List TreeEl} (h : MOk s) (k : Nat) : MOk fun i => after k (s i) where
  sorted i := by
    have := h.sorted i
    unfold KeySorted at this ⊢
    exact this.sublist (List.filter_sublist.map _)
  sub i hi e he := by
    unfold Load.after at he
    rw [List.mem_filter] at he
    obtain ⟨x, hx, e'⟩ := h.sub i hi e he.1
    exact ⟨x, List.mem_filter.2 ⟨hx, by simpa [e'] using he.2⟩, e'⟩
  rest i hi := by simp [Load.after, h.rest i hi]

theorem okHead_iff {k : Nat} {l : List TreeEl} (hs : KeySorted l) : okHead k l = true ↔ ∀ e ∈ l, k ≤ e.key := by
  cases l with
  | nil => simp [okHead]
  | cons e l =>
    simp only [okHead, decide_eq_true_eq]
    constructor
    · intro h x hx
      rcases List.mem_cons.1 hx with rfl | hx
      · exact h
      · have := hs.cons.1 x hx; omega
    · intro h; exact h e (by simp)

theorem head_le {e : TreeEl} {l} (hs : KeySorted (e :: l)) : ∀ x ∈ e :: l, e.key ≤ x.key := by
  intro x hx
  rcases List.mem_cons.1 hx with rfl | hx
  · omega
  · have := hs.cons.1 x hx; omega

theorem rec_head (e : TreeEl) (l) : rec? e.key (e :: l) = some e := by
  unfold rec?; rw [List.find?_cons_of_pos (by simp)]

theorem after_head {e : TreeEl} {l} (hs : KeySorted (e :: l)) : after e.key (e :: l) = l := by
  unfold after
  rw [List.filter_cons_of_neg (by simp)]
  exact after_eq_self hs.cons.1

theorem idx_cases {α : Type} {f g : Nat → α} (h0 : f 0 = g 0) (h1 : f 1 = g 1) (h2 : f 2 = g 2) (h3 : f 3 = g 3)
    (h4 : f 4 = g 4) (h5 : f 5 = g 5) (h : ∀ i, 6 ≤ i → f i = g i) : f = g := by
  funext i
  match i with
  | 0 => exact h0
  | 1 => exact h1
  | 2 => exact h2
  | 3 => exact h3
  | 4 => exact h4
  | 5 => exact h5
  | n + 6 => exact h _ (by omega)

theorem sub_le {s : Nat → List TreeEl} (h : MOk s) {i k : Nat} (hi : i < 3) (hk : ∀ e ∈ s i, k ≤ e.key) :
    ∀ e ∈ s (i + 3), k ≤ e.key := by
  intro e he
  obtain ⟨x, hx, e'⟩ := h.sub i hi e he
  have := hk x hx; omega

theorem after_nil_sub {s : Nat → List TreeEl} (h : MOk s) {i : Nat} (hi : i < 3) (he : s i = []) : s (i + 3) = [] := by
  cases hs : s (i + 3) with
  | nil => rfl
  | cons e l =>
    obtain ⟨x, hx, -⟩ := h.sub i hi e (by rw [hs]; simp)
    rw [he] at hx; simp at hx

/-- The entry of key `k` is returned, and the records after `k` are left. -/
def Got (s : Nat → List TreeEl) (k : Nat) : Merged := some ((k, fun i => rec? k (s i)), fun i => after k (s i))

theorem larger {k : Nat} {l : List TreeEl} (hl : ∀ e ∈ l, k < e.key) : rec? k l = none ∧ after k l = l :=
  ⟨rec_none fun e he => by have := hl e he; omega, after_eq_self hl⟩

theorem MOk.lt3 {s : Nat → List TreeEl} (h : MOk s) {i k : Nat} (hi : i < 3) (hk : ∀ e ∈ s i, k < e.key) :
    ∀ e ∈ s (i + 3), k < e.key := by
  intro e he
  obtain ⟨x, hx, e'⟩ := h.sub i hi e he
  have := hk x hx; omega

theorem MOk.le_all {s : Nat → List TreeEl} (h : MOk s) {k : Nat} (h0 : ∀ e ∈ s 0, k ≤ e.key) (h1 : ∀ e ∈ s 1, k ≤ e.key)
    (h2 : ∀ e ∈ s 2, k ≤ e.key) : ∀ i, ∀ e ∈ s i, k ≤ e.key := by
  intro i
  match i with
  | 0 => exact h0
  | 1 => exact h1
  | 2 => exact h2
  | 3 => exact sub_le h (by omega) h0
  | 4 => exact sub_le h (by omega) h1
  | 5 => exact sub_le h (by omega) h2
  | n + 6 => rw [h.rest _ (by omega)]; simp

theorem mergerThird_eq {s : Nat → List TreeEl} (h : MOk s) {pos pos'} (h2 : s 2 = pos :: pos')
    (b0 : ∀ e ∈ s 0, pos.key < e.key) (b1 : ∀ e ∈ s 1, pos.key < e.key) : mergerThird s = Got s pos.key := by
  have s2s := h.sorted 2
  rw [h2] at s2s
  have l5 := sub_le h (i := 2) (by omega) (k := pos.key) (by rw [h2]; exact head_le s2s)
  unfold mergerThird Got
  simp only [h2, take1_eq (h.sorted 5) l5]
  congr 1
  refine Prod.ext (Prod.ext rfl ?_) ?_
  · refine idx_cases (larger b0).1.symm (larger b1).1.symm ?_ (larger (h.lt3 (i := 0) (by omega) b0)).1.symm
      (larger (h.lt3 (i := 1) (by omega) b1)).1.symm rfl ?_
    · simp only [h2, rec_head]; rfl
    · intro i hi
      simp only [h.rest i hi, if_neg (show ¬ i = 2 by omega), if_neg (show ¬ i = 5 by omega)]
      rfl
  · refine idx_cases (larger b0).2.symm (larger b1).2.symm ?_ (larger (h.lt3 (i := 0) (by omega) b0)).2.symm
      (larger (h.lt3 (i := 1) (by omega) b1)).2.symm rfl ?_
    · simp only [h2, after_head s2s]; rfl
    · intro i hi
      simp only [h.rest i hi, if_neg (show ¬ i = 2 by omega), if_neg (show ¬ i = 5 by omega)]
      rfl

theorem mergerSecond_eq {s : Nat → List TreeEl} (h : MOk s) {ops ops'} (h1 : s 1 = ops :: ops')
    (b0 : ∀ e ∈ s 0, ops.key < e.key) (hok : okHead ops.key (s 2) = true) : mergerSecond s = Got s ops.key := by
  have s1s := h.sorted 1
  rw [h1] at s1s
  have l4 := sub_le h (i := 1) (by omega) (k := ops.key) (by rw [h1]; exact head_le s1s)
  have l2 := (okHead_iff (h.sorted 2)).1 hok
  unfold mergerSecond Got
  simp only [h1, hok, if_true, take1_eq (h.sorted 4) l4, takePair_eq (h.sorted 2) (h.sorted 5) (h.sub 2 (by omega)) l2]
  congr 1
  refine Prod.ext (Prod.ext rfl ?_) ?_
  · refine idx_cases (larger b0).1.symm ?_ rfl (larger (h.lt3 (i := 0) (by omega) b0)).1.symm rfl rfl ?_
    · simp only [h1, rec_head]; rfl
    · intro i hi
      simp only [h.rest i hi, if_neg (show ¬ i = 1 by omega), if_neg (show ¬ i = 4 by omega),
        if_neg (show ¬ i = 2 by omega), if_neg (show ¬ i = 5 by omega)]
      rfl
  · refine idx_cases (larger b0).2.symm ?_ rfl (larger (h.lt3 (i := 0) (by omega) b0)).2.symm rfl rfl ?_
    · simp only [h1, after_head s1s]; rfl
    · intro i hi
      simp only [h.rest i hi, if_neg (show ¬ i = 1 by omega), if_neg (show ¬ i = 4 by omega),
        if_neg (show ¬ i = 2 by omega), if_neg (show ¬ i = 5 by omega)]
      rfl

theorem mergerFirst_eq {s : Nat → List TreeEl} (h : MOk s) {spo spo'} (h0 : s 0 = spo :: spo')
    (hok1 : okHead spo.key (s 1) = true) (hok2 : okHead spo.key (s 2) = true) : mergerGet s = Got s spo.key := by
  have s0s := h.sorted 0
  rw [h0] at s0s
  have l3 := sub_le h (i := 0) (by omega) (k := spo.key) (by rw [h0]; exact head_le s0s)
  have l1 := (okHead_iff (h.sorted 1)).1 hok1
  have l2 := (okHead_iff (h.sorted 2)).1 hok2
  unfold mergerGet Got
  simp only [h0, hok1, hok2, Bool.and_self, if_true, take1_eq (h.sorted 3) l3,
    takePair_eq (h.sorted 1) (h.sorted 4) (h.sub 1 (by omega)) l1,
    takePair_eq (h.sorted 2) (h.sorted 5) (h.sub 2 (by omega)) l2]
  congr 1
  refine Prod.ext (Prod.ext rfl ?_) ?_
  · refine idx_cases ?_ rfl rfl rfl rfl rfl ?_
    · simp only [h0, rec_head]; rfl
    · intro i hi
      simp only [h.rest i hi, if_neg (show ¬ i = 0 by omega), if_neg (show ¬ i = 3 by omega),
        if_neg (show ¬ i = 1 by omega), if_neg (show ¬ i = 4 by omega),
        if_neg (show ¬ i = 2 by omega), if_neg (show ¬ i = 5 by omega)]
      rfl
  · refine idx_cases ?_ rfl rfl rfl rfl rfl ?_
    · simp only [h0, after_head s0s]; rfl
    · intro i hi
      simp only [h.rest i hi, if_neg (show ¬ i = 0 by omega), if_neg (show ¬ i = 3 by omega),
        if_neg (show ¬ i = 1 by omega), if_neg (show ¬ i = 4 by omega),
        if_neg (show ¬ i = 2 by omega), if_neg (show ¬ i = 5 by omega)]
      rfl

theorem head_lt_of_not_ok {k : Nat} {l : List TreeEl} (h : ¬ okHead k l = true) : ∃ e l', l = e :: l' ∧ e.key < k := by
  cases l with
  | nil => simp [okHead] at h
  | cons e l => exact ⟨e, l, rfl, by simpa [okHead] using h⟩

theorem le_of_head {e : TreeEl} {l : List TreeEl} {k : Nat} (hs : KeySorted l) {l'} (h : l = e :: l') (hk : k ≤ e.key) :
    ∀ x ∈ l, k ≤ x.key := by
  subst h
  intro x hx
  have := head_le hs x hx; omega

/-- `get` takes the smallest key, with its records in all permutations. -/
theorem mergerGet_spec {s : Nat → List TreeEl} (h : MOk s) :
    (mergerGet s = none ∧ ∀ i, s i = []) ∨
    ∃ k, (∃ i, i < 3 ∧ ∃ e ∈ s i, e.key = k) ∧ (∀ i, ∀ e ∈ s i, k ≤ e.key) ∧ mergerGet s = Got s k := by
  -- the case that POS has the smallest key
  have third : ∀ {pos pos'}, s 2 = pos :: pos' → (∀ e ∈ s 0, pos.key < e.key) → (∀ e ∈ s 1, pos.key < e.key) →
      ∃ k, (∃ i, i < 3 ∧ ∃ e ∈ s i, e.key = k) ∧ (∀ i, ∀ e ∈ s i, k ≤ e.key) ∧ mergerThird s = Got s k := by
    intro pos pos' h2 b0 b1
    exact ⟨pos.key, ⟨2, by omega, pos, by rw [h2]; simp, rfl⟩,
      h.le_all (fun e he => Nat.le_of_lt (b0 e he)) (fun e he => Nat.le_of_lt (b1 e he))
        (le_of_head (h.sorted 2) h2 (Nat.le_refl _)), mergerThird_eq h h2 b0 b1⟩
  have second : (∀ e ∈ s 0, ∃ x, (x ∈ s 1 ∨ x ∈ s 2) ∧ x.key < e.key) → (s 1 ≠ [] ∨ s 2 ≠ []) →
      ∃ k, (∃ i, i < 3 ∧ ∃ e ∈ s i, e.key = k) ∧ (∀ i, ∀ e ∈ s i, k ≤ e.key) ∧ mergerSecond s = Got s k := by
    intro h0 hne
    cases h1 : s 1 with
    | nil =>
      have he : mergerSecond s = mergerThird s := by unfold mergerSecond; rw [h1]
      rw [he]
      cases h2 : s 2 with
      | nil => simp [h1, h2] at hne
      | cons pos pos' =>
        have l2 := le_of_head (h.sorted 2) h2 (Nat.le_refl _)
        refine third h2 ?_ (by simp [h1])
        intro e he
        obtain ⟨x, hx, hlt⟩ := h0 e he
        rcases hx with hx | hx
        · rw [h1] at hx; simp at hx
        · have := l2 x hx; omega
    | cons ops ops' =>
      have l1 := le_of_head (h.sorted 1) h1 (Nat.le_refl _)
      by_cases hok : okHead ops.key (s 2) = true
      · have l2 := (okHead_iff (h.sorted 2)).1 hok
        have b0 : ∀ e ∈ s 0, ops.key < e.key := by
          intro e he
          obtain ⟨x, hx, hlt⟩ := h0 e he
          rcases hx with hx | hx
          · have := l1 x hx; omega
          · have := l2 x hx; omega
        exact ⟨ops.key, ⟨1, by omega, ops, by rw [h1]; simp, rfl⟩,
          h.le_all (fun e he => Nat.le_of_lt (b0 e he)) l1 l2, mergerSecond_eq h h1 b0 hok⟩
      · obtain ⟨pos, pos', h2, hlt⟩ := head_lt_of_not_ok hok
        have he : mergerSecond s = mergerThird s := by unfold mergerSecond; rw [h1]; simp only [if_neg hok]
        rw [he]
        have l2 := le_of_head (h.sorted 2) h2 (Nat.le_refl _)
        refine third h2 ?_ fun e he => by have := l1 e he; omega
        intro e he
        obtain ⟨x, hx, hlt⟩ := h0 e he
        rcases hx with hx | hx
        · have := l1 x hx; omega
        · have := l2 x hx; omega
  cases h0 : s 0 with
  | nil =>
    have he : mergerGet s = mergerSecond s := by unfold mergerGet; rw [h0]
    rw [he]
    by_cases hne : s 1 = [] ∧ s 2 = []
    · left
      refine ⟨?_, ?_⟩
      · unfold mergerSecond mergerThird; rw [hne.1, hne.2]
      · intro i
        match i with
        | 0 => exact h0
        | 1 => exact hne.1
        | 2 => exact hne.2
        | 3 => exact after_nil_sub h (i := 0) (by omega) h0
        | 4 => exact after_nil_sub h (i := 1) (by omega) hne.1
        | 5 => exact after_nil_sub h (i := 2) (by omega) hne.2
        | n + 6 => exact h.rest _ (by omega)
    · right
      refine second (by simp [h0]) ?_
      by_cases e1 : s 1 = []
      · exact .inr fun e2 => hne ⟨e1, e2⟩
      · exact .inl e1
  | cons spo spo' =>
    right
    have l0 := le_of_head (h.sorted 0) h0 (Nat.le_refl _)
    by_cases hok : okHead spo.key (s 1) = true ∧ okHead spo.key (s 2) = true
    · have l1 := (okHead_iff (h.sorted 1)).1 hok.1
      have l2 := (okHead_iff (h.sorted 2)).1 hok.2
      exact ⟨spo.key, ⟨0, by omega, spo, by rw [h0]; simp, rfl⟩, h.le_all l0 l1 l2, mergerFirst_eq h h0 hok.1 hok.2⟩
    · have he : mergerGet s = mergerSecond s := by
        unfold mergerGet; rw [h0]
        simp only
        exact if_neg (by simpa using hok)
      rw [he]
      have : ∃ x, (x ∈ s 1 ∨ x ∈ s 2) ∧ x.key < spo.key := by
        by_cases h1 : okHead spo.key (s 1) = true
        · have h2 : ¬ okHead spo.key (s 2) = true := fun h2 => hok ⟨h1, h2⟩
          obtain ⟨e, l', e', hlt⟩ := head_lt_of_not_ok h2
          exact ⟨e, .inr (by rw [e']; simp), hlt⟩
        · obtain ⟨e, l', e', hlt⟩ := head_lt_of_not_ok h1
          exact ⟨e, .inl (by rw [e']; simp), hlt⟩
      obtain ⟨x, hx, hlt⟩ := this
      refine second (fun e he => ⟨x, hx, by have := l0 e he; omega⟩) ?_
      rcases hx with hx | hx
      · exact .inl (List.ne_nil_of_mem hx)
      · exact .inr (List.ne_nil_of_mem hx)

theorem after_length_le (k : Nat) (l : List TreeEl) : (after k l).length ≤ l.length := List.length_filter_le _ _

theorem after_length_lt {k : Nat} {l : List TreeEl} {e} (he : e ∈ l) (hk : e.key = k) : (after k l).length < l.length := by
  exact List.length_filter_lt_length_iff_exists.2 ⟨e, he, by simp; omega⟩

theorem mem_after {k : Nat} {l : List TreeEl} {e} : e ∈ after k l ↔ e ∈ l ∧ k < e.key := by
  unfold after; simp [List.mem_filter]

/-- The loop lists the keys in increasing order, each with its records. -/
theorem mergerLoop_spec : ∀ {n : Nat} {s : Nat → List TreeEl}, MOk s →
    (s 0).length + (s 1).length + (s 2).length ≤ n →
    ((mergerLoop n s).map (·.1)).Pairwise (· < ·) ∧
    (∀ k, k ∈ (mergerLoop n s).map (·.1) ↔ ∃ i, ∃ e ∈ s i, e.key = k) ∧
    ∀ x ∈ mergerLoop n s, ∀ i, x.2 i = rec? x.1 (s i) := by
  intro n
  induction n with
  | zero =>
    intro s h hn
    have h0 : s 0 = [] := List.eq_nil_of_length_eq_zero (by omega)
    have h1 : s 1 = [] := List.eq_nil_of_length_eq_zero (by omega)
    have h2 : s 2 = [] := List.eq_nil_of_length_eq_zero (by omega)
    have hall : ∀ i, s i = [] := by
      intro i
      match i with
      | 0 => exact h0
      | 1 => exact h1
      | 2 => exact h2
      | 3 => exact after_nil_sub h (i := 0) (by omega) h0
      | 4 => exact after_nil_sub h (i := 1) (by omega) h1
      | 5 => exact after_nil_sub h (i := 2) (by omega) h2
      | n + 6 => exact h.rest _ (by omega)
    simp [mergerLoop, hall]
  | succ n ih =>
    intro s h hn
    rcases mergerGet_spec h with ⟨e, hall⟩ | ⟨k, ⟨i0, hi0, e0, he0, hk0⟩, hmin, e⟩
    · simp [mergerLoop, e, hall]
    · have hlen : (after k (s 0)).length + (after k (s 1)).length + (after k (s 2)).length ≤ n := by
        have a0 := after_length_le k (s 0)
        have a1 := after_length_le k (s 1)
        have a2 := after_length_le k (s 2)
        have a3 := after_length_lt he0 hk0
        match i0, hi0 with
        | 0, _ => omega
        | 1, _ => omega
        | 2, _ => omega
      obtain ⟨ih1, ih2, ih3⟩ := ih (h.after k) hlen
      have hloop : mergerLoop (n + 1) s = (k, fun i => rec? k (s i)) :: mergerLoop n fun i => after k (s i) := by
        rw [mergerLoop, e]; rfl
      rw [hloop, List.map_cons]
      have hgt : ∀ x ∈ (mergerLoop n fun i => after k (s i)).map (·.1), k < x := by
        intro x hx
        obtain ⟨i, e, he, hk⟩ := (ih2 x).1 hx
        have := (mem_after.1 he).2
        omega
      refine ⟨List.pairwise_cons.2 ⟨hgt, ih1⟩, ?_, ?_⟩
      · intro x
        rw [List.mem_cons, ih2]
        constructor
        · rintro (rfl | ⟨i, e, he, hk⟩)
          · exact ⟨i0, e0, he0, hk0⟩
          · exact ⟨i, e, (mem_after.1 he).1, hk⟩
        · rintro ⟨i, e, he, hk⟩
          have := hmin i e he
          by_cases hx : x = k
          · exact .inl hx
          · exact .inr ⟨i, e, mem_after.2 ⟨he, by omega⟩, hk⟩
      · intro x hx i
        rcases List.mem_cons.1 hx with rfl | hx
        · rfl
        · rw [ih3 x hx i]
          have hgt' := hgt x.1 (List.mem_map.2 ⟨x, hx, rfl⟩)
          show rec? x.1 (after k (s i)) = rec? x.1 (s i)
          unfold rec? after
          rw [List.find?_filter]
          congr 1
          funext e
          by_cases he : e.key = x.1
          · simp [he, hgt']
          · simp [he]


/-! ## The file of records -/

/-- What the fields of a record can hold. -/
def TreeEl.Fits (e : TreeEl) : Prop := e.key < 2 ^ 63 ∧ e.n < 2 ^ 63 ∧ e.file < 2 ^ 15 ∧ e.pos < 2 ^ 31 ∧ e.strat < 256

theorem TreeEl.enc_length (e : TreeEl) : e.enc.length = 23 := by simp [TreeEl.enc, encBE_length]

theorem decBE_enc {w n : Nat} (h : n < 256 ^ w) : decBE (encBE w n) = n := by
  rw [decBE_enc', Nat.mod_eq_of_lt h]

theorem readTree_cons {e : TreeEl} (h : e.Fits) (bs : List UInt8) : readTree (e.enc ++ bs) = e :: readTree bs := by
  obtain ⟨h1, h2, h3, h4, h5⟩ := h
  have hl : ¬ (e.enc ++ bs).length < 23 := by rw [List.length_append, e.enc_length]; omega
  rw [readTree, dif_neg hl]
  have hd : (e.enc ++ bs).drop 23 = bs := by
    rw [List.drop_append_of_le_length (by rw [e.enc_length]; omega), ← e.enc_length, List.drop_length]; rfl
  rw [hd]
  congr 1
  unfold TreeEl.enc
  simp only [List.append_assoc]
  generalize hk : encBE 8 e.key = bk
  generalize hn : encBE 8 e.n = bn
  generalize hf : encBE 2 e.file = bf
  generalize hp : encBE 4 e.pos = bp
  have lk : bk.length = 8 := by rw [← hk, encBE_length]
  have ln : bn.length = 8 := by rw [← hn, encBE_length]
  have lf : bf.length = 2 := by rw [← hf, encBE_length]
  have lp : bp.length = 4 := by rw [← hp, encBE_length]
  have e1 : ∀ r, (bk ++ r).take 8 = bk := fun r => by rw [← lk, List.take_left']; rfl
  have e2 : ∀ r, (bk ++ r).drop 8 = r := fun r => by rw [← lk, List.drop_left']; rfl
  have e3 : ∀ r, (bn ++ r).take 8 = bn := fun r => by rw [← ln, List.take_left']; rfl
  have e4 : ∀ r, (bn ++ r).drop 8 = r := fun r => by rw [← ln, List.drop_left']; rfl
  have e5 : ∀ r, (bf ++ r).take 2 = bf := fun r => by rw [← lf, List.take_left']; rfl
  have e6 : ∀ r, (bf ++ r).drop 2 = r := fun r => by rw [← lf, List.drop_left']; rfl
  have e7 : ∀ r, (bp ++ r).take 4 = bp := fun r => by rw [← lp, List.take_left']; rfl
  have e8 : ∀ r, (bp ++ r).drop 4 = r := fun r => by rw [← lp, List.drop_left']; rfl
  have d16 : ∀ l : List UInt8, l.drop 16 = (l.drop 8).drop 8 := fun l => by rw [List.drop_drop]
  have d18 : ∀ l : List UInt8, l.drop 18 = ((l.drop 8).drop 8).drop 2 := fun l => by simp [List.drop_drop]
  have g22 : ∀ l : List UInt8, l.getD 22 0 = ((((l.drop 8).drop 8).drop 2).drop 4).getD 0 0 := fun l => by
    simp [List.drop_drop, List.getD_eq_getElem?_getD]
  rw [d16, d18, g22, e1, e2, e3, e4, e5, e6, e7, e8, ← hk, ← hn, ← hf, ← hp,
    decBE_enc (by omega), decBE_enc (by omega), decBE_enc (by omega), decBE_enc (by omega)]
  obtain ⟨k, n, f, p, st⟩ := e
  congr 1
  simp
  omega

theorem readTree_enc {l : List TreeEl} (h : ∀ e ∈ l, e.Fits) : readTree (l.flatMap TreeEl.enc) = l := by
  induction l with
  | nil => rw [List.flatMap_nil, readTree, dif_pos (by simp)]
  | cons e l ih =>
    rw [List.flatMap_cons, readTree_cons (h e (by simp)), ih fun x hx => h x (by simp [hx])]

/-! ## One permutation -/

/-- The strategies a user can fix, or none. -/
def FixedOk (f : Option Nat) : Prop := f = none ∨ f = some strat5 ∨ f = some strat6 ∨ f = some strat7

theorem agg_flags {f1 f2 : Nat} (h1 : f1 ≤ 3) (h2 : f2 ≤ 3) :
    isAggregated (setBytesField2 (setBytesField1 (setStorageType 0 NEWROW) f1) f2 % 256) = false ∧
    isAggregated (setBytesField2 (setBytesField1 (setStorageType 0 NEWCLUSTER) f1) f2 % 256) = false ∧
    isAggregated ((setBytesField2 (setBytesField1 (setStorageType 0 NEWCLUSTER) f1) f2 ||| 1) % 256) = false := by
  have e1 : f1 = 0 ∨ f1 = 1 ∨ f1 = 2 ∨ f1 = 3 := by omega
  have e2 : f2 = 0 ∨ f2 = 1 ∨ f2 = 2 ∨ f2 = 3 := by omega
  rcases e1 with rfl | rfl | rfl | rfl <;> rcases e2 with rfl | rfl | rfl | rfl <;> decide

theorem determine_lt (l : List (Nat × Nat)) (ncc : Nat) (big : Bool) : determine l ncc big < 256 := by
  unfold determine
  exact Nat.mod_lt _ (by omega)

theorem determine_not_aggr (l : List (Nat × Nat)) (ncc : Nat) (big : Bool) : isAggregated (determine l ncc big) = false := by
  unfold determine
  generalize l.foldl Scan.step {} = s
  by_cases hlen : l.length < THRESHOLD
  · simp only [if_pos hlen]
    split
    · decide
    generalize nbytes s.max1 = n1
    generalize nbytes s.max2 = n2
    have ha := agg_flags (flag_le n1) (flag_le n2)
    by_cases hg : s.maxGroup ≤ 255
    · simp only [if_pos hg, gt_iff_lt, Nat.lt_irrefl, if_false]
      by_cases hsp : l.length * (n1 + n2) < s.ngroups * (n1 + 1) + n2
      · rw [if_pos hsp]; exact ha.1
      · rw [if_neg hsp]; exact ha.2.1
    · simp only [if_neg hg, gt_iff_lt, Nat.reduceLT, if_true]
      by_cases hsp : l.length * (n1 + n2) < s.ngroups * (n1 + 4) + n2
      · rw [if_pos hsp]; exact ha.1
      · rw [if_neg hsp]; exact ha.2.2
  · simp only [if_neg hlen]
    cases big <;> decide

theorem Params.strat_ok {P : Params} (hf : FixedOk P.fixed) {l : List (Nat × Nat)} (hs : SortedS (toI l))
    (hv : ∀ p ∈ l, p.1 < 2 ^ 39 ∧ p.2 < 2 ^ 39) (hl : l.length < 2 ^ 32) :
    ∃ L, decode (P.strat l) = some L ∧ isAggregated (P.strat l) = false ∧ P.strat l < 256 ∧ Readable L l := by
  unfold Params.strat
  rcases hf with e | e | e | e
  · rw [e]
    obtain ⟨L, h1, h2⟩ := C04_chosen_layout_wide_enough l P.ncc P.big hs.sorted
      (fun p hp => by have := hv p hp; omega)
    exact ⟨L, h1, determine_not_aggr .., determine_lt .., readable_of_wide h2 hv (by omega)⟩
  · rw [e]
    show ∃ L, decode strat5 = some L ∧ isAggregated strat5 = false ∧ strat5 < 256 ∧ Readable L l
    exact ⟨_, C03_fixed_strategies.1, by decide, by decide,
      ⟨fun p hp => by have := hv p hp; omega, by omega⟩⟩
  · rw [e]
    show ∃ L, decode strat6 = some L ∧ isAggregated strat6 = false ∧ strat6 < 256 ∧ Readable L l
    exact ⟨_, C03_fixed_strategies.2.1, by decide, by decide, fun p hp => hv p hp⟩
  · rw [e]
    show ∃ L, decode strat7 = some L ∧ isAggregated strat7 = false ∧ strat7 < 256 ∧ Readable L l
    refine ⟨_, C03_fixed_strategies.2.2, by decide, by decide, fun p hp => ⟨(hv p hp).1, (hv p hp).2, ?_⟩⟩
    have := List.length_filter_le (fun q : Nat × Nat => q.1 = p.1) l
    simp only [Width.safe]; omega

theorem getElem_zip_mem {α β : Type} {a : List α} {b : List β} {x} (h : x ∈ a.zip b) : x.1 ∈ a ∧ x.2 ∈ b := by
  obtain ⟨x, y⟩ := x
  exact ⟨(List.of_mem_zip h).1, (List.of_mem_zip h).2⟩

theorem squeeze_length_le (prev) (rows : List (Nat × Nat × Nat)) : (squeeze prev rows).length ≤ rows.length := by
  induction rows generalizing prev with
  | nil => simp [squeeze]
  | cons r rows ih =>
    rw [squeeze]
    split
    · have := ih (some r); simp; omega
    · have := ih prev; simp; omega

theorem groupRows_length_le (rows : List (Nat × Nat × Nat)) : (groupRows rows).length ≤ rows.length := by
  induction rows with
  | nil => simp [groupRows]
  | cons r rows ih =>
    rw [groupRows]
    cases h : groupRows rows with
    | nil => simp
    | cons g gs =>
      rw [h] at ih
      simp only [List.length_cons] at ih ⊢
      by_cases hg : g.1 = r.1
      · simp only [if_pos hg, List.length_cons]; omega
      · simp only [if_neg hg, List.length_cons]; omega

theorem group_length_le {gs : List (Nat × List (Nat × Nat))} {g} (h : g ∈ gs) : g.2.length ≤ (rowsOf gs).length := by
  induction gs with
  | nil => simp at h
  | cons a gs ih =>
    simp only [rowsOf, List.flatMap_cons, List.length_append, List.length_map]
    rcases List.mem_cons.1 h with rfl | h
    · omega
    · have := ih h; simp only [rowsOf] at this; omega

/-- The pairs of a key. -/
def KeyPairs (rows : List (Nat × Nat × Nat)) (k : Nat) (ps : List (Nat × Nat)) : Prop :=
  ps ≠ [] ∧ SortedS (toI ps) ∧ ∀ p, p ∈ ps ↔ (k, p) ∈ rows

theorem toI_inj {a b : List (Nat × Nat)} (h : toI a = toI b) : a = b := by
  induction a generalizing b with
  | nil => cases b with
    | nil => rfl
    | cons _ _ => simp [toI] at h
  | cons x a ih => cases b with
    | nil => simp [toI] at h
    | cons y b =>
      simp only [toI, List.map_cons, List.cons.injEq, Prod.mk.injEq] at h
      obtain ⟨⟨h1, h2⟩, h3⟩ := h
      rw [ih (b := b) h3]
      congr 1
      exact Prod.ext (by omega) (by omega)

theorem mem_toI {l : List (Nat × Nat)} {p : Pair} : p ∈ toI l ↔ ∃ q ∈ l, p = ((q.1 : Int), (q.2 : Int)) := by
  simp only [toI, List.mem_map, eq_comm]

theorem KeyPairs.unique {rows k a b} (ha : KeyPairs rows k a) (hb : KeyPairs rows k b) : a = b := by
  refine toI_inj (sortedS_ext ha.2.1 hb.2.1 fun p => ?_)
  rw [mem_toI, mem_toI]
  constructor
  · rintro ⟨q, hq, e⟩; exact ⟨q, (hb.2.2 q).2 ((ha.2.2 q).1 hq), e⟩
  · rintro ⟨q, hq, e⟩; exact ⟨q, (ha.2.2 q).2 ((hb.2.2 q).1 hq), e⟩

theorem KeyPairs.length_le {rows k ps} (h : KeyPairs rows k ps) : ps.length ≤ rows.length := by
  have hnd : (toI ps).Nodup := h.2.1.nodup
  have hnd1 : ps.Nodup := by
    unfold toI at hnd
    exact (List.pairwise_map.1 hnd).imp fun hab e => hab (by rw [e])
  have hnd2 : (ps.map fun p => (k, p)).Nodup := List.pairwise_map.2 (hnd1.imp fun hab e => hab (Prod.mk.inj e).2)
  have := length_le_of_nodup_subset hnd2 (fun x hx => by
    obtain ⟨p, hp, rfl⟩ := List.mem_map.1 hx
    exact (h.2.2 p).1 hp)
  simpa using this

/-- What loading a permutation does. -/
def LoadsOk (P : Params) (rows : List (Nat × Nat × Nat)) : Prop :=
    KeySorted (loadPerm P rows).tree ∧
    (∀ e ∈ (loadPerm P rows).tree, ∃ ps, KeyPairs rows e.key ps ∧ ¬ P.skips ps ∧ e.n = ps.length ∧ e.strat = P.strat ps) ∧
    (∀ r ∈ rows, ∃ ps, KeyPairs rows r.1 ps ∧ (¬ P.skips ps → ∃ e ∈ (loadPerm P rows).tree, e.key = r.1)) ∧
    (∀ e ∈ (loadPerm P rows).tree, e.file < (loadPerm P rows).store.files.length ∧ e.pos < rows.length) ∧
    ∀ m M, Mapped m M (loadPerm P rows).store.files → (∀ f ∈ (loadPerm P rows).store.files, f.bytes.length < 2 ^ 40) →
      (∀ e ∈ (loadPerm P rows).tree, ∀ ps, KeyPairs rows e.key ps →
        (M.getTable m e.file e.pos).2 = (M.getTable m e.file e.pos).1 + (tableBytes P.thr e.strat ps).length ∧
        Placed m (M.getTable m e.file e.pos).1 (tableBytes P.thr e.strat ps)) ∧
      ((loadPerm P rows).tree ≠ [] → Yields (TermIt.itr m M) (TermIt.init m M)
        ((loadPerm P rows).tree.map fun e => (e.key, e.file, (e.pos : Int), e.strat)))

theorem loadPerm_ok {P : Params} {rows : List (Nat × Nat × Nat)} (hskip : P.skipThr < THRESHOLD)
    (hr : rows.Pairwise rowLe) (hfix : FixedOk P.fixed)
    (hv : ∀ r ∈ rows, r.1 < 2 ^ 39 ∧ r.2.1 < 2 ^ 39 ∧ r.2.2 < 2 ^ 39) (hn : rows.length < 2 ^ 32) :
    LoadsOk P rows := by
  unfold LoadsOk
  have hq := squeeze_spec (prev := none) hr (by simp)
  have hg := groupRows_sorted hq.1
  have hload := loadPerm_eq hskip hr
  have hro := rowsOf_groupRows (squeeze none rows)
  have hne := groupRows_ne (squeeze none rows)
  have hlg : (groupRows (squeeze none rows)).length ≤ rows.length :=
    Nat.le_trans (groupRows_length_le _) (squeeze_length_le _ _)
  have hlr : (rowsOf (groupRows (squeeze none rows))).length ≤ rows.length := by
    rw [hro]; exact squeeze_length_le _ _
  have hmem : ∀ r, r ∈ rowsOf (groupRows (squeeze none rows)) ↔ r ∈ rows := by
    intro r; rw [hro, hq.2.2]; simp
  generalize groupRows (squeeze none rows) = gs at *
  have hkp : ∀ g ∈ gs, KeyPairs rows g.1 g.2 := fun g hg' =>
    ⟨hne g hg', hg.2 g hg', fun p => by rw [← hmem, mem_rowsOf_iff hg.1 hg']⟩
  have hf := foldl_addKey (P := P) gs (x := ({}, []))
  obtain ⟨hs1, hs2⟩ := hf
  have hl1 := congrArg Prod.fst hload
  have hl2 := congrArg Prod.snd hload
  simp only at hl1 hl2
  rw [hl1, hl2, hs1, hs2]
  clear hl1 hl2 hs1 hs2 hload
  have hkept : ∀ g ∈ gs.filter fun g => ¬ P.skips g.2, g ∈ gs ∧ ¬ P.skips g.2 := by
    intro g hg'
    rw [List.mem_filter] at hg'
    exact ⟨hg'.1, by simpa using hg'.2⟩
  have hkept' : ∀ g ∈ gs, ¬ P.skips g.2 → g ∈ gs.filter fun g => ¬ P.skips g.2 := by
    intro g hg' hs
    rw [List.mem_filter]
    exact ⟨hg', by simpa using hs⟩
  have hks : ((gs.filter fun g => ¬ P.skips g.2).map (·.1)).Pairwise (· < ·) :=
    hg.1.sublist (List.filter_sublist.map _)
  have hklen : (gs.filter fun g => ¬ P.skips g.2).length ≤ rows.length := Nat.le_trans (List.length_filter_le _ _) hlg
  generalize (gs.filter fun g => ¬ P.skips g.2) = kept at *
  obtain ⟨tss, cur, his, htne, hcne, henum, hlen⟩ := Store.Is.addAll (maxSize := P.maxSize)
    (ts := kept.map fun g => P.tbl g.1 g.2) (s := ({} : Store)) (tss := []) (cur := []) ⟨rfl, rfl⟩ (by simp)
  generalize Store.addAll P.maxSize (kept.map fun g => P.tbl g.1 g.2) ({} : Store) = r at *
  simp only [List.nil_append, enumAll, enumFile] at henum
  simp only [List.length_map] at hlen
  simp only [List.nil_append]
  have hflat : (tss ++ [cur]).flatten = kept.map fun g => P.tbl g.1 g.2 := by
    have := congrArg (List.map (·.1)) henum
    rw [enumAll_fst, List.map_fst_zip (by simp; omega)] at this
    exact this
  have hfiles : r.1.files = (tss ++ [cur]).map fileOf := by
    rw [Store.files, his.1, his.2]; simp
  refine ⟨?_, ?_, ?_, ?_, ?_⟩
  · unfold KeySorted
    have e : ((kept.zip r.2).map fun q : (Nat × List (Nat × Nat)) × (Nat × Nat) =>
        (⟨q.1.1, q.1.2.length, q.2.1, q.2.2, P.strat q.1.2⟩ : TreeEl)).map (·.key) = kept.map (·.1) := by
      rw [List.map_map]
      conv => rhs; rw [← List.map_fst_zip (l₁ := kept) (l₂ := r.2) (by omega), List.map_map]
      rfl
    rw [e]; exact hks
  · intro e he
    obtain ⟨q, hq', rfl⟩ := List.mem_map.1 he
    have := hkept _ (getElem_zip_mem hq').1
    exact ⟨q.1.2, hkp _ this.1, this.2, rfl, rfl⟩
  · intro x hx
    have := (hmem x).2 hx
    rw [rowsOf, List.mem_flatMap] at this
    obtain ⟨g, hg', hpg⟩ := this
    obtain ⟨p', -, e⟩ := List.mem_map.1 hpg
    have hgk : g.1 = x.1 := by rw [← e]
    refine ⟨g.2, hgk ▸ hkp g hg', fun hsk => ?_⟩
    have : g ∈ (kept.zip r.2).map (·.1) := by
      rw [List.map_fst_zip (by omega)]; exact hkept' g hg' hsk
    obtain ⟨q, hq', hqg⟩ := List.mem_map.1 this
    exact ⟨_, List.mem_map.2 ⟨q, hq', rfl⟩, by rw [hqg, hgk]⟩
  · intro e he
    obtain ⟨q, hq', rfl⟩ := List.mem_map.1 he
    have hen : (P.tbl q.1.1 q.1.2, q.2.1, q.2.2) ∈ enumAll 0 (tss ++ [cur]) := by
      rw [henum, List.zip_map_left, List.mem_map]
      exact ⟨q, hq', rfl⟩
    obtain ⟨-, ts, h1, h2⟩ := mem_enumAll hen
    rw [Nat.sub_zero] at h1
    obtain ⟨hfl, h1⟩ := List.getElem?_eq_some_iff.1 h1
    obtain ⟨hil, h2⟩ := List.getElem?_eq_some_iff.1 h2
    refine ⟨by rw [hfiles, List.length_map]; exact hfl, ?_⟩
    have h1 : ts.length ≤ (tss ++ [cur]).flatten.length :=
      (List.sublist_flatten_of_mem (h1 ▸ List.getElem_mem hfl)).length_le
    rw [hflat, List.length_map] at h1
    show q.2.2 < _
    omega
  · intro m M hM hby
    rw [hfiles] at hM hby
    have hfit : ∀ ts ∈ tss ++ [cur], TblFits ts := by
      intro ts hts
      refine ⟨hby _ (List.mem_map.2 ⟨ts, hts, rfl⟩), ?_, ?_⟩
      · have h1 : ts.length ≤ (tss ++ [cur]).flatten.length := (List.sublist_flatten_of_mem hts).length_le
        rw [hflat, List.length_map] at h1
        omega
      · intro t ht
        have h1 : t ∈ (tss ++ [cur]).flatten := List.mem_flatten.2 ⟨ts, hts, ht⟩
        rw [hflat] at h1
        obtain ⟨g, hg', rfl⟩ := List.mem_map.1 h1
        have hgs := (hkept g hg').1
        have hk := hkp g hgs
        have hvg : ∀ p ∈ g.2, p.1 < 2 ^ 39 ∧ p.2 < 2 ^ 39 := fun p hp => (hv _ ((hk.2.2 p).1 hp)).2
        obtain ⟨p, hp⟩ := List.exists_mem_of_ne_nil _ hk.1
        have hkey := (hv _ ((hk.2.2 p).1 hp)).1
        have hle := group_length_le hgs
        obtain ⟨L, -, -, h3, -⟩ := Params.strat_ok hfix hk.2.1 hvg (by omega)
        exact ⟨by show g.1 < _; omega, h3⟩
    constructor
    · intro e he ps hps
      obtain ⟨q, hq', rfl⟩ := List.mem_map.1 he
      have hk := hkept _ (getElem_zip_mem hq').1
      have hps' : ps = q.1.2 := hps.unique (hkp _ hk.1)
      subst hps'
      have hen : (P.tbl q.1.1 q.1.2, q.2.1, q.2.2) ∈ enumAll 0 (tss ++ [cur]) := by
        rw [henum, List.zip_map_left, List.mem_map]
        exact ⟨q, hq', rfl⟩
      obtain ⟨-, ts, h1, h2⟩ := mem_enumAll hen
      rw [Nat.sub_zero] at h1
      obtain ⟨hfl, h1⟩ := List.getElem?_eq_some_iff.1 h1
      obtain ⟨hil, h2⟩ := List.getElem?_eq_some_iff.1 h2
      have hMf := hM.2 q.2.1 (by rw [List.length_map]; exact hfl)
      simp only [List.getElem_map, h1] at hMf
      have := getTable_eq hMf.1 hMf.2.1 hMf.2.2 (hfit ts (h1 ▸ List.getElem_mem hfl)) hil
      simp only [h2] at this
      obtain ⟨t1, t2⟩ := this
      simp only
      rw [t1]
      exact ⟨rfl, t2⟩
    · intro htree
      have hkn : kept ≠ [] := by
        rintro rfl; simp at htree
      have hall : ∀ ts ∈ tss ++ [cur], ts ≠ [] := by
        intro ts hts
        rcases List.mem_append.1 hts with h | h
        · exact htne ts h
        · rw [List.mem_singleton] at h; subst h
          exact hcne (.inr (by simpa using hkn))
      have hidx : ∀ f (h : f < (tss ++ [cur]).length), Placed m (M.idx f) (storeFileIndex none (fileOf (tss ++ [cur])[f]).marks) := by
        intro f h
        have := (hM.2 f (by rw [List.length_map]; exact h)).2.1
        simpa only [List.getElem_map] using this
      have hpos : 0 < (tss ++ [cur]).length := by simp
      have := termIt_all (m := m) (M := M) (tss := tss ++ [cur]) (by rw [hM.1, List.length_map]) hidx hfit hall _ 0 rfl hpos 0
      rw [List.drop_zero, henum] at this
      have hinit : TermIt.init m M = ⟨0, -1, M.idx 0 + 8, M.idx 0 + 8 + (tss ++ [cur])[0].length * 11, 0⟩ := by
        unfold TermIt.init
        rw [(parse_eq (size := M.size 0) (hidx 0 hpos) (hfit _ (List.getElem_mem hpos))).1]
      rw [hinit]
      have hmap : ((kept.map fun g => P.tbl g.1 g.2).zip r.2).map termRow =
          ((kept.zip r.2).map fun q : (Nat × List (Nat × Nat)) × (Nat × Nat) =>
            (⟨q.1.1, q.1.2.length, q.2.1, q.2.2, P.strat q.1.2⟩ : TreeEl)).map
              fun e => (e.key, e.file, (e.pos : Int), e.strat) := by
        rw [List.zip_map_left, List.map_map, List.map_map]
        rfl
      rw [← hmap]
      exact this

/-! ## The whole load -/

/-- A triple of the input as a triple of the specification. -/
def T3.triple (t : T3) : Triple := ⟨t.1, t.2.1, t.2.2⟩

theorem permRow_key (d : Order) (t : T3) : ((permRow d.idx t).1 : Int) = d.key t.triple := by cases d <;> rfl

theorem permRow_pair (d : Order) (t : T3) :
    (((permRow d.idx t).2.1 : Int), ((permRow d.idx t).2.2 : Int)) = d.pair t.triple := by cases d <;> rfl

/-- The rows are sorted: `sort` returns a sorted list with the same rows. -/
def SortsRows (f : List T3 → List T3) : Prop := ∀ l, (f l).Pairwise rowLe ∧ (f l).Perm l

/-- What a load can handle: term ids below `2^39` (C01), fewer than `2^31` triples (C49: positions are stored in
four bytes), and the fields of the files of records and marks suffice. -/
structure Config.Ok (c : Config) (g : List T3) : Prop where
  sort : SortsRows c.sort
  nindices : c.nindices = 1 ∨ c.nindices = 3 ∨ c.nindices = 4 ∨ c.nindices = 6
  skip : c.skipThr < THRESHOLD
  fixed : FixedOk c.fixed
  ids : ∀ t ∈ g, t.1 < 2 ^ 39 ∧ t.2.1 < 2 ^ 39 ∧ t.2.2 < 2 ^ 39
  len : g.length < 2 ^ 31
  nfiles : ∀ i, (c.ins g i).store.files.length ≤ 2 ^ 15
  fsize : ∀ i, ∀ f ∈ (c.ins g i).store.files, f.bytes.length < 2 ^ 40

theorem permsOf_partner {n i : Nat} (h : permsOf n (i + 3) = true) : permsOf n i = true := by
  unfold permsOf at *
  split at h
  · simp at h
  · simp at h; omega
  · simp at h ⊢; omega
  · simp at h ⊢; omega
  · simp at h

theorem permsOf_lt {n i : Nat} (h : permsOf n i = true) : i < 6 := by
  unfold permsOf at h
  split at h <;> simp at h <;> omega

section
variable {c : Config} {g : List T3}

/-- The sorted rows of a permutation. -/
def Config.rows (c : Config) (g : List T3) (i : Nat) : List T3 := c.sort (g.map (permRow i))

theorem Config.Ok.mem_rows (h : c.Ok g) {i r} : r ∈ c.rows g i ↔ ∃ t ∈ g, permRow i t = r := by
  rw [Config.rows, (h.sort _).2.mem_iff, List.mem_map]

theorem permRow_lt (i : Nat) {t : T3} {b : Nat} (h : t.1 < b ∧ t.2.1 < b ∧ t.2.2 < b) :
    (permRow i t).1 < b ∧ (permRow i t).2.1 < b ∧ (permRow i t).2.2 < b := by
  unfold permRow; split <;> simp [h]

theorem Config.Ok.rows_lt (h : c.Ok g) {i} : ∀ r ∈ c.rows g i, r.1 < 2 ^ 39 ∧ r.2.1 < 2 ^ 39 ∧ r.2.2 < 2 ^ 39 := by
  intro r hr
  obtain ⟨t, ht, rfl⟩ := h.mem_rows.1 hr
  exact permRow_lt i (h.ids t ht)

theorem Config.Ok.rows_len (h : c.Ok g) {i} : (c.rows g i).length < 2 ^ 31 := by
  rw [Config.rows, (h.sort _).2.length_eq, List.length_map]; exact h.len

theorem Config.Ok.load (h : c.Ok g) (i : Nat) : LoadsOk (c.params i) (c.rows g i) :=
  loadPerm_ok (P := c.params i) (rows := c.rows g i) h.skip (h.sort _).1
  h.fixed h.rows_lt (by have := h.rows_len (i := i); omega)

theorem ins_pos {i : Nat} (hi : permsOf c.nindices i = true) : c.ins g i = loadPerm (c.params i) (c.rows g i) := by
  rw [Config.ins, if_pos hi, Config.rows]

theorem ins_neg {i : Nat} (hi : ¬ permsOf c.nindices i = true) : c.ins g i = {} := by
  rw [Config.ins, if_neg hi]

theorem Config.Ok.fits (h : c.Ok g) (i : Nat) : ∀ e ∈ (c.ins g i).tree, e.Fits := by
  intro e he
  by_cases hi : permsOf c.nindices i = true
  · have hnf := h.nfiles i
    rw [ins_pos hi] at he hnf
    obtain ⟨-, h2, -, h4, -⟩ := h.load i
    obtain ⟨ps, hk, -, hn, hst⟩ := h2 e he
    obtain ⟨hf, hp⟩ := h4 e he
    have hl := h.rows_len (i := i)
    have hvp : ∀ p ∈ ps, p.1 < 2 ^ 39 ∧ p.2 < 2 ^ 39 := fun p hp => (h.rows_lt _ ((hk.2.2 p).1 hp)).2
    obtain ⟨p, hpp⟩ := List.exists_mem_of_ne_nil _ hk.1
    have hkey := (h.rows_lt _ ((hk.2.2 p).1 hpp)).1
    have hlen : ps.length ≤ (c.rows g i).length := by
      exact hk.length_le
    obtain ⟨L, -, -, h3, -⟩ := Params.strat_ok (P := c.params i) h.fixed hk.2.1 hvp (by omega)
    simp only at hkey
    exact ⟨by omega, by omega, by omega, by omega, by rw [hst]; exact h3⟩
  · rw [ins_neg hi] at he
    simp at he

theorem Config.Ok.mok (h : c.Ok g) : MOk fun i => (c.ins g i).tree where
  sorted i := by
    by_cases hi : permsOf c.nindices i = true
    · simp only [ins_pos hi]
      exact (h.load i).1
    · simp [ins_neg hi, KeySorted]
  sub i hi3 e he := by
    by_cases hi : permsOf c.nindices (i + 3) = true
    · have hi' := permsOf_partner hi
      simp only [ins_pos hi] at he
      simp only [ins_pos hi']
      obtain ⟨-, h2, -, -, -⟩ := h.load (i + 3)
      obtain ⟨ps, hk, -⟩ := h2 e he
      obtain ⟨p, hp⟩ := List.exists_mem_of_ne_nil _ hk.1
      obtain ⟨t, ht, e'⟩ := h.mem_rows.1 ((hk.2.2 p).1 hp)
      have hkey : (permRow i t).1 = e.key := by
        have : (permRow (i + 3) t).1 = e.key := by rw [e']
        rw [← this]
        match i, hi3 with
        | 0, _ => rfl
        | 1, _ => rfl
        | 2, _ => rfl
      obtain ⟨qs, -, hq⟩ := (h.load i).2.2.1 _ (h.mem_rows.2 ⟨t, ht, rfl⟩)
      obtain ⟨x, hx, hxk⟩ := hq (fun hs => by have := hs.1; simp only [Config.params] at this; omega)
      exact ⟨x, hx, by omega⟩
    · simp only [ins_neg hi] at he
      simp at he
  rest i hi := by
    have : ¬ permsOf c.nindices i = true := fun h => by have := permsOf_lt h; omega
    simp [ins_neg this]

/-- The entries of the tree. -/
theorem Config.Ok.tree_spec (h : c.Ok g) : ((c.tree g).map (·.1)).Pairwise (· < ·) ∧
    (∀ k, k ∈ (c.tree g).map (·.1) ↔ ∃ i, ∃ e ∈ (c.ins g i).tree, e.key = k) ∧
    ∀ x ∈ c.tree g, ∀ i, x.2 i = rec? x.1 (c.ins g i).tree := by
  have e : c.tree g = mergeCoordinates fun i => (c.ins g i).tree := by
    unfold Config.tree
    congr 1
    funext i
    exact readTree_enc (h.fits i)
  rw [e]
  exact mergerLoop_spec h.mok (Nat.le_refl _)

variable {m : Mem} {M : Nat → Maps}

theorem find_key {l : List (Nat × (Nat → Option TreeEl))} (hs : (l.map (·.1)).Pairwise (· < ·)) {k : Int} {x} :
    (l.find? fun e => (e.1 : Int) = k) = some x ↔ x ∈ l ∧ (x.1 : Int) = k := by
  constructor
  · intro h
    exact ⟨List.mem_of_find?_eq_some h, by have := List.find?_some h; simpa using this⟩
  · rintro ⟨h, hk⟩
    induction l with
    | nil => simp at h
    | cons y l ih =>
      rw [List.map_cons, List.pairwise_cons] at hs
      rcases List.mem_cons.1 h with rfl | h
      · rw [List.find?_cons_of_pos (by simpa using hk)]
      · have := hs.1 x.1 (List.mem_map.2 ⟨x, h, rfl⟩)
        rw [List.find?_cons_of_neg (by simp; omega)]
        exact ih hs.2 h

/-- The coordinates of a term in the opened graph. -/
theorem Config.Ok.coords_some (h : c.Ok g) {k : Int} {i : Nat} {e : Coord} :
    (∃ cs, (c.open' g m M).coords k = some cs ∧ cs i = some e) ↔
      ∃ t ∈ (c.ins g i).tree, (t.key : Int) = k ∧ e = coordOf m (M i) t.file t.pos t.strat := by
  obtain ⟨h1, h2, h3⟩ := h.tree_spec
  have hsort := h.mok.sorted i
  constructor
  · rintro ⟨cs, hc, he⟩
    simp only [Config.open', Option.map_eq_some_iff] at hc
    obtain ⟨x, hx, rfl⟩ := hc
    obtain ⟨hx, hk⟩ := (find_key h1).1 hx
    simp only [Option.map_eq_some_iff] at he
    obtain ⟨t, ht, rfl⟩ := he
    rw [h3 x hx i] at ht
    obtain ⟨ht, hkt⟩ := (rec_some hsort).1 ht
    exact ⟨t, ht, by omega, rfl⟩
  · rintro ⟨t, ht, hk, rfl⟩
    obtain ⟨x, hx, hxk⟩ := List.mem_map.1 ((h2 t.key).2 ⟨i, t, ht, rfl⟩)
    have hf := (find_key h1 (k := k)).2 ⟨hx, by omega⟩
    refine ⟨_, by simp only [Config.open', hf]; rfl, ?_⟩
    simp only [Option.map_eq_some_iff]
    refine ⟨t, ?_, rfl⟩
    rw [h3 x hx i]
    exact (rec_some hsort).2 ⟨ht, by omega⟩

theorem Config.Ok.table (h : c.Ok g) (hM : ∀ i, i < 6 → Mapped m (M i) (c.ins g i).store.files) {i : Nat} {t : TreeEl}
    (ht : t ∈ (c.ins g i).tree) : ∃ ps, KeyPairs (c.rows g i) t.key ps ∧ t.n = ps.length ∧
      (c.open' g m M).Holds (coordOf m (M i) t.file t.pos t.strat) (toI ps) := by
  by_cases hi : permsOf c.nindices i = true
  · have hM' := hM i (permsOf_lt hi)
    have hfs := h.fsize i
    rw [ins_pos hi] at ht hM' hfs
    obtain ⟨-, h2, -, -, h5⟩ := h.load i
    obtain ⟨ps, hk, -, hn, hst⟩ := h2 t ht
    have hp := (h5 m (M i) hM' hfs).1 t ht ps hk
    refine ⟨ps, hk, hn, ?_⟩
    have hvp : ∀ p ∈ ps, p.1 < 2 ^ 39 ∧ p.2 < 2 ^ 39 := fun p hp => (h.rows_lt _ ((hk.2.2 p).1 hp)).2
    have hfit := h.fits i t (by rw [ins_pos hi]; exact ht)
    have hlen : ps.length < 2 ^ 32 := by
      have := hk.length_le
      have hl := h.rows_len (i := i)
      omega
    obtain ⟨L, e1, e2, -, e4⟩ := Params.strat_ok (P := c.params i) h.fixed hk.2.1 hvp hlen
    rw [← hst] at e1 e2
    refine ⟨L, (c.params i).thr, ps, e1, e2, e4, hk.1, hk.2.1, ?_, ?_, rfl⟩
    · have := hp.2
      simp only [tableBytes, e1] at this
      exact this
    · have := hp.1
      simp only [tableBytes, e1] at this
      exact this
  · rw [ins_neg hi] at ht
    simp at ht

theorem Config.Ok.pairsOf (h : c.Ok g) {d : Order} {k : Nat} {ps} (hk : KeyPairs (c.rows g d.idx) k ps) :
    PairsOf (g.map T3.triple) d k (toI ps) := by
  intro p
  rw [mem_toI]
  constructor
  · rintro ⟨q, hq, rfl⟩
    obtain ⟨t, ht, e⟩ := h.mem_rows.1 ((hk.2.2 q).1 hq)
    refine ⟨t.triple, List.mem_map.2 ⟨t, ht, rfl⟩, ?_, ?_⟩
    · rw [← permRow_key, e]
    · rw [← permRow_pair, e]
  · rintro ⟨t', ht', e1, e2⟩
    obtain ⟨t, ht, rfl⟩ := List.mem_map.1 ht'
    rw [← permRow_key] at e1
    rw [← permRow_pair] at e2
    refine ⟨(permRow d.idx t).2, (hk.2.2 _).2 (h.mem_rows.2 ⟨t, ht, ?_⟩), e2.symm⟩
    exact Prod.ext (by simpa using Int.ofNat.inj e1) rfl

/-- A graph loaded and opened again is the stored graph with its triples. -/
theorem Config.Ok.loaded (h : c.Ok g) (hM : ∀ i, i < 6 → Mapped m (M i) (c.ins g i).store.files) :
    Loaded (c.open' g m M) (g.map T3.triple) where
  keys := by
    intro t ht x
    obtain ⟨t, -, rfl⟩ := List.mem_map.1 ht
    cases x <;> exact Int.natCast_nonneg _
  partner := by
    intro i hi hp
    obtain ⟨j, rfl⟩ : ∃ j, i = j + 3 := ⟨i - 3, by omega⟩
    exact permsOf_partner hp
  tables := by
    intro d k cs e hc he
    obtain ⟨t, ht, hk, rfl⟩ := h.coords_some.1 ⟨cs, hc, he⟩
    obtain ⟨ps, hkp, -, hh⟩ := h.table hM ht
    exact ⟨toI ps, hh, hk ▸ h.pairsOf hkp⟩
  complete := by
    intro d hd hp t' ht'
    obtain ⟨t, ht, rfl⟩ := List.mem_map.1 ht'
    have hi : permsOf c.nindices d.idx = true := hp
    obtain ⟨ps, -, hq⟩ := (h.load d.idx).2.2.1 _ (h.mem_rows.2 ⟨t, ht, rfl⟩)
    obtain ⟨x, hx, hxk⟩ := hq (fun hs => by have := hs.1; simp only [Config.params] at this; omega)
    rw [← ins_pos hi] at hx
    obtain ⟨cs, h1, h2⟩ := (h.coords_some (m := m) (M := M) (k := d.key t.triple) (i := d.idx)).2
      ⟨x, hx, by rw [hxk, permRow_key], rfl⟩
    exact ⟨cs, _, h1, h2⟩
  files := by
    intro d
    by_cases he : (c.ins g d.idx).tree = []
    · have : (c.open' g m M).files d.idx = none := by simp only [Config.open', if_pos he]
      rw [this]
      intro k cs hc
      cases hcs : cs d.idx with
      | none => rfl
      | some e =>
        obtain ⟨t, ht, -⟩ := h.coords_some.1 ⟨cs, hc, hcs⟩
        rw [he] at ht; simp at ht
    · have hi : permsOf c.nindices d.idx = true := by
        apply Classical.byContradiction
        intro hi
        exact he (by rw [ins_neg hi])
      have hM' := hM d.idx (permsOf_lt hi)
      have hfs := h.fsize d.idx
      have he' := he
      rw [ins_pos hi] at hM' hfs he'
      have hy := ((h.load d.idx).2.2.2.2 m (M d.idx) hM' hfs).2 he'
      rw [← ins_pos hi] at hy
      have hdr := drain_eq hy (fuel := (c.ins g d.idx).tree.length + 1) (by simp)
      have hl : (c.open' g m M).files d.idx = some ((c.ins g d.idx).tree.map fun t =>
          ((t.key : Int), coordOf m (M d.idx) t.file t.pos t.strat)) := by
        simp only [Config.open', if_neg he]
        rw [hdr, List.map_map]
        congr 1
      rw [hl]
      constructor
      · rw [List.map_map]
        have := h.mok.sorted d.idx
        unfold KeySorted at this
        rw [List.pairwise_map] at this ⊢
        exact this.imp fun h => by show (_ : Int) < _; simp; omega
      · intro k e
        rw [h.coords_some, List.mem_map]
        constructor
        · rintro ⟨t, ht, e'⟩
          simp only [Prod.mk.injEq] at e'
          exact ⟨t, ht, e'.1, e'.2.symm⟩
        · rintro ⟨t, ht, e1, e2⟩
          exact ⟨t, ht, by rw [e1, e2]⟩

end

/-! ## Mapping files into memory -/

/-- Where the `j`-th of a sequence of byte strings starts when they follow each other. -/
def blobBase (B : Nat → List UInt8) : Nat → Nat
  | 0 => 0
  | j + 1 => blobBase B j + (B j).length

theorem blobBase_mono (B : Nat → List UInt8) {i j : Nat} (h : i ≤ j) : blobBase B i ≤ blobBase B j := by
  induction h with
  | refl => exact Nat.le_refl _
  | step _ ih => simp only [blobBase]; omega

/-- Any sequence of byte strings can be laid out in memory. -/
theorem exists_mem (B : Nat → List UInt8) : ∃ m : Mem, ∀ j, Placed m (blobBase B j) (B j) := by
  classical
  refine ⟨fun a => if h : ∃ j, blobBase B j ≤ a ∧ a < blobBase B (j + 1) then
    (B (Classical.choose h)).getD (a - blobBase B (Classical.choose h)) 0 else 0, fun j i hi => ?_⟩
  have h : ∃ j', blobBase B j' ≤ blobBase B j + i ∧ blobBase B j + i < blobBase B (j' + 1) :=
    ⟨j, by omega, by simp only [blobBase]; omega⟩
  have uniq : ∀ j', blobBase B j' ≤ blobBase B j + i ∧ blobBase B j + i < blobBase B (j' + 1) → j' = j := by
    intro j' hc
    rcases Nat.lt_trichotomy j' j with hl | hl | hl
    · have := blobBase_mono B (i := j' + 1) (j := j) hl
      omega
    · exact hl
    · have := blobBase_mono B (i := j + 1) (j := j') hl
      simp only [blobBase] at this
      omega
  have e : Classical.choose h = j := uniq _ (Classical.choose_spec h)
  simp only [dif_pos h, e]
  rw [Nat.add_sub_cancel_left]
  simp [List.getD_eq_getElem?_getD, hi]

/-- The files of six permutations can all be mapped. -/
theorem exists_mapped (files : Nat → List DataFile) : ∃ (m : Mem) (M : Nat → Maps), ∀ i, i < 6 → Mapped m (M i) (files i) := by
  generalize hB : (fun j => match (files (j % 6))[j / 12]? with
    | some f => if j / 6 % 2 = 0 then f.bytes else storeFileIndex none f.marks
    | none => []) = B
  obtain ⟨m, hm⟩ := exists_mem B
  refine ⟨m, fun i => ⟨fun f => blobBase B (12 * f + i), fun f => blobBase B (12 * f + 6 + i),
    fun f => (((files i)[f]?).getD {}).bytes.length, (files i).length⟩, fun i hi => ⟨rfl, fun f hf => ?_⟩⟩
  have h1 := hm (12 * f + i)
  have h2 := hm (12 * f + 6 + i)
  have e1 : B (12 * f + i) = (files i)[f].bytes := by
    rw [← hB]
    simp only [show (12 * f + i) % 6 = i by omega, show (12 * f + i) / 12 = f by omega,
      show (12 * f + i) / 6 % 2 = 0 by omega, List.getElem?_eq_getElem hf, if_true]
  have e2 : B (12 * f + 6 + i) = storeFileIndex none (files i)[f].marks := by
    rw [← hB]
    simp only [show (12 * f + 6 + i) % 6 = i by omega, show (12 * f + 6 + i) / 12 = f by omega,
      show (12 * f + 6 + i) / 6 % 2 = 1 by omega, List.getElem?_eq_getElem hf]
    rfl
  rw [e1] at h1
  rw [e2] at h2
  exact ⟨h1, h2, by simp [List.getElem?_eq_getElem hf]⟩

end Trident.Load
