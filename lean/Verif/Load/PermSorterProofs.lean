import Verif.Load.PermSorter
import Verif.Load.LoaderProofs
/-! Proofs about `PermSorter`. -/
namespace Trident.PermSorter
open Trident.Load

/-! ## Records -/

theorem append_lt : ∀ {x y : List UInt8} {u v : List UInt8}, x.length = y.length → (x ++ u < y ++ v ↔ x < y ∨ (x = y ∧ u < v))
  | [], [], u, v, _ => by simp
  | a :: x, b :: y, u, v, h => by
    have := append_lt (x := x) (y := y) (u := u) (v := v) (by simpa using h)
    rw [List.cons_append, List.cons_append, List.cons_lt_cons_iff, List.cons_lt_cons_iff, this]
    constructor
    · rintro (h1 | ⟨rfl, h1 | ⟨rfl, h1⟩⟩)
      · exact .inl (.inl h1)
      · exact .inl (.inr ⟨rfl, h1⟩)
      · exact .inr ⟨rfl, h1⟩
    · rintro ((h1 | ⟨rfl, h1⟩) | ⟨h1, h2⟩)
      · exact .inl h1
      · exact .inr ⟨rfl, .inl h1⟩
      · injection h1 with e1 e2
        exact .inr ⟨e1, .inr ⟨e2, h2⟩⟩

theorem enc_mod (w n : Nat) : ∀ k, w ≤ k → encBE w (n % 256 ^ k) = encBE w n := by
  induction w with
  | zero => intro k _; rfl
  | succ w ih =>
    intro k hk
    rw [encBE, encBE, ih k (by omega)]
    congr 1
    have e : 256 ^ k = 256 ^ w * (256 * 256 ^ (k - (w + 1))) := by
      rw [← Nat.mul_assoc, ← Nat.pow_succ, ← Nat.pow_add]
      congr 1
      omega
    have h1 : n % 256 ^ k / 256 ^ w = (n / 256 ^ w) % (256 * 256 ^ (k - (w + 1))) := by
      rw [e, Nat.mod_mul_right_div_self]
    rw [h1, ← UInt8.toNat_inj]
    simp [Nat.mod_mul_right_mod]

theorem enc_lt (w : Nat) : ∀ {a b : Nat}, a < 256 ^ w → b < 256 ^ w → (encBE w a < encBE w b ↔ a < b) := by
  induction w with
  | zero => intro a b ha hb; simp at ha hb; subst ha; subst hb; simp [encBE]
  | succ w ih =>
    intro a b ha hb
    have hpos : 0 < 256 ^ w := Nat.pow_pos (by decide)
    rw [Nat.pow_succ, Nat.mul_comm] at ha hb
    have ha' : a / 256 ^ w < 256 := by rw [Nat.div_lt_iff_lt_mul hpos]; exact ha
    have hb' : b / 256 ^ w < 256 := by rw [Nat.div_lt_iff_lt_mul hpos]; exact hb
    rw [encBE, encBE, List.cons_lt_cons_iff, ← enc_mod w a w (Nat.le_refl _), ← enc_mod w b w (Nat.le_refl _),
      ih (Nat.mod_lt _ hpos) (Nat.mod_lt _ hpos), UInt8.lt_iff_toNat_lt, ← UInt8.toNat_inj]
    simp only [UInt8.toNat_ofNat', Nat.mod_eq_of_lt ha', Nat.mod_eq_of_lt hb']
    have ea := Nat.div_add_mod a (256 ^ w)
    have eb := Nat.div_add_mod b (256 ^ w)
    have la := Nat.mod_lt a hpos
    have lb := Nat.mod_lt b hpos
    constructor
    · rintro (h | ⟨h1, h2⟩)
      · have := Nat.mul_le_mul_left (256 ^ w) (show a / 256 ^ w + 1 ≤ b / 256 ^ w from h)
        rw [Nat.mul_add] at this
        omega
      · rw [h1] at ea; omega
    · intro h
      rcases Nat.lt_trichotomy (a / 256 ^ w) (b / 256 ^ w) with h1 | h1 | h1
      · exact .inl h1
      · rw [h1] at ea; exact .inr ⟨h1, by omega⟩
      · have := Nat.mul_le_mul_left (256 ^ w) (show b / 256 ^ w + 1 ≤ a / 256 ^ w from h1)
        rw [Nat.mul_add] at this
        omega

theorem enc_inj {w a b : Nat} (ha : a < 256 ^ w) (hb : b < 256 ^ w) : encBE w a = encBE w b ↔ a = b :=
  ⟨fun h => by have := congrArg decBE h; rwa [decBE_enc ha, decBE_enc hb] at this, fun h => by rw [h]⟩

/-- Ids that fit into five bytes. -/
def Fits (t : T3) : Prop := t.1 < 2 ^ 40 ∧ t.2.1 < 2 ^ 40 ∧ t.2.2 < 2 ^ 40

theorem recOf_length (t : T3) : (recOf t).length = 15 := by simp [recOf]

theorem recOf_lt {t t' : T3} (h : Fits t) (h' : Fits t') : recOf t < recOf t' ↔ rowLt t t' := by
  obtain ⟨h1, h2, h3⟩ := h
  obtain ⟨g1, g2, g3⟩ := h'
  have e : (2 : Nat) ^ 40 = 256 ^ 5 := by decide
  rw [e] at h1 h2 h3 g1 g2 g3
  unfold recOf rowLt
  rw [append_lt (by simp), append_lt (by simp), enc_lt 5 h1 g1, enc_lt 5 h2 g2, enc_lt 5 h3 g3, enc_inj h1 g1]
  constructor
  · rintro ((a | ⟨a, b⟩) | ⟨a, b⟩)
    · exact .inl a
    · exact .inr ⟨a, .inl b⟩
    · obtain ⟨a1, a2⟩ := List.append_inj a (by simp)
      exact .inr ⟨(enc_inj h1 g1).1 a1, .inr ⟨(enc_inj h2 g2).1 a2, b⟩⟩
  · rintro (a | ⟨a, b | ⟨b, c⟩⟩)
    · exact .inl (.inl a)
    · exact .inl (.inr ⟨a, b⟩)
    · exact .inr ⟨by rw [a, b], c⟩

theorem tripleOf_recOf {t : T3} (h : Fits t) : tripleOf (recOf t) = t := by
  obtain ⟨h1, h2, h3⟩ := h
  have e : (2 : Nat) ^ 40 = 256 ^ 5 := by decide
  rw [e] at h1 h2 h3
  unfold tripleOf recOf field
  have l1 : (encBE 5 t.1).length = 5 := by simp
  have l2 : (encBE 5 t.1 ++ encBE 5 t.2.1).length = 10 := by simp
  rw [List.append_assoc, List.drop_zero, List.take_left' l1, List.drop_left' l1, List.take_left' (by simp), ← List.append_assoc, List.drop_left' l2,
    List.take_of_length_le (by simp), decBE_enc h1, decBE_enc h2, decBE_enc h3]

theorem recLess_false {a b : Rec} : recLess b a = false ↔ a ≤ b := by
  unfold recLess
  rw [decide_eq_false_iff_not, List.not_lt]

theorem rowLe_of_rec {t t' : T3} (h : Fits t) (h' : Fits t') (hl : recOf t ≤ recOf t') : rowLe t t' := by
  have : ¬ rowLt t' t := fun hc => (List.not_lt.2 hl) ((recOf_lt h' h).2 hc)
  simp only [rowLt, rowLe] at *
  omega

/-! ## Permutations of records -/

theorem five {l : List UInt8} (h : l.length = 5) : ∃ a b c d e, l = [a, b, c, d, e] := by
  match l, h with
  | [a, b, c, d, e], _ => exact ⟨a, b, c, d, e, rfl⟩

theorem puts {x y z w : List UInt8} (hx : x.length = 5) (hy : y.length = 5) (hz : z.length = 5) (hw : w.length = 5) :
    put5 (x ++ y ++ z) 0 w = w ++ y ++ z ∧ put5 (x ++ y ++ z) 5 w = x ++ w ++ z ∧ put5 (x ++ y ++ z) 10 w = x ++ y ++ w := by
  obtain ⟨a1, a2, a3, a4, a5, rfl⟩ := five hx
  obtain ⟨b1, b2, b3, b4, b5, rfl⟩ := five hy
  obtain ⟨c1, c2, c3, c4, c5, rfl⟩ := five hz
  obtain ⟨d1, d2, d3, d4, d5, rfl⟩ := five hw
  exact ⟨rfl, rfl, rfl⟩

theorem gets {x y z : List UInt8} (hx : x.length = 5) (hy : y.length = 5) (hz : z.length = 5) :
    get5 (x ++ y ++ z) 0 = x ∧ get5 (x ++ y ++ z) 5 = y ∧ get5 (x ++ y ++ z) 10 = z := by
  obtain ⟨a1, a2, a3, a4, a5, rfl⟩ := five hx
  obtain ⟨b1, b2, b3, b4, b5, rfl⟩ := five hy
  obtain ⟨c1, c2, c3, c4, c5, rfl⟩ := five hz
  exact ⟨rfl, rfl, rfl⟩

theorem swaps {x y z : List UInt8} (hx : x.length = 5) (hy : y.length = 5) (hz : z.length = 5) :
    swap23 (x ++ y ++ z) = x ++ z ++ y ∧ swap12 (x ++ y ++ z) = y ++ x ++ z ∧ swap13 (x ++ y ++ z) = z ++ y ++ x ∧
      rotL (x ++ y ++ z) = y ++ z ++ x ∧ rotR (x ++ y ++ z) = z ++ x ++ y := by
  obtain ⟨g0, g5, g10⟩ := gets hx hy hz
  refine ⟨?_, ?_, ?_, ?_, ?_⟩
  · unfold swap23
    simp only [g5, g10]
    rw [(puts hx hy hz hz).2.1, (puts hx hz hz hy).2.2]
  · unfold swap12
    simp only [g0, g5]
    rw [(puts hx hy hz hy).1, (puts hy hy hz hx).2.1]
  · unfold swap13
    simp only [g0, g10]
    rw [(puts hx hy hz hz).1, (puts hz hy hz hx).2.2]
  · unfold rotL
    simp only [g0, g5]
    rw [(puts hx hy hz hy).1, (gets hy hy hz).2.2, (puts hy hy hz hz).2.1, (puts hy hz hz hx).2.2]
  · unfold rotR
    simp only [g0, g10]
    rw [(puts hx hy hz hz).1, (gets hz hy hz).2.1, (puts hz hy hz hy).2.2, (puts hz hy hy hx).2.1]

attribute [local irreducible] swap23 swap12 swap13 rotL rotR encBE in
theorem permute_spec {cur next : Nat} (hc : cur < 6) (hn : next < 6) (hne : cur ≠ next) (t : T3) :
    permute cur next (recOf (permRow cur t)) = recOf (permRow next t) := by
  have key : ∀ x y z : Nat, _ := fun x y z => swaps (x := encBE 5 x) (y := encBE 5 y) (z := encBE 5 z) (by simp) (by simp) (by simp)
  have c6 : cur = 0 ∨ cur = 1 ∨ cur = 2 ∨ cur = 3 ∨ cur = 4 ∨ cur = 5 := by omega
  have n6 : next = 0 ∨ next = 1 ∨ next = 2 ∨ next = 3 ∨ next = 4 ∨ next = 5 := by omega
  rcases c6 with rfl | rfl | rfl | rfl | rfl | rfl <;> rcases n6 with rfl | rfl | rfl | rfl | rfl | rfl <;>
    first
    | exact absurd rfl hne
    | skip
  all_goals simp [permute]
  all_goals simp only [permRow, recOf]
  all_goals
    first
    | exact (key _ _ _).1
    | exact (key _ _ _).2.1
    | exact (key _ _ _).2.2.1
    | exact (key _ _ _).2.2.2.1
    | exact (key _ _ _).2.2.2.2

theorem permRow_fits {p : Nat} {t : T3} (h : Fits t) : Fits (permRow p t) := by
  obtain ⟨h1, h2, h3⟩ := h
  unfold permRow
  split <;> exact ⟨by assumption, by assumption, by assumption⟩

/-! ## Filling the array -/

theorem flatten_set {α : Type} : ∀ {l : List (List α)} {i : Nat} {x : α} {xs : List α}, l.getD i [] = x :: xs → (x :: (l.set i xs).flatten).Perm l.flatten
  | [], i, x, xs, h => by simp at h
  | a :: l, 0, x, xs, h => by
    simp at h
    subst h
    exact .refl _
  | a :: l, i + 1, x, xs, h => by
    have h' : l.getD i [] = x :: xs := by simpa using h
    simp only [List.set_cons_succ, List.flatten_cons]
    exact List.perm_middle.symm.trans ((flatten_set h').append_left a)

theorem fillPart_spec : ∀ (k idx : Nat) (opened : List Nat) (streams : List (List T3)),
    ((fillPart k idx opened streams).1 ++ (fillPart k idx opened streams).2.2.flatten).Perm streams.flatten ∧
      (fillPart k idx opened streams).1.length ≤ k ∧ (fillPart k idx opened streams).2.2.length = streams.length
  | 0, _, _, _ => ⟨.refl _, Nat.le_refl _, rfl⟩
  | k + 1, idx, opened, streams => by
    rw [fillPart]
    cases h : opened[idx]? with
    | none => exact ⟨.refl _, by simp, rfl⟩
    | some i =>
      cases hs : streams.getD i [] with
      | nil =>
        simp only [hs]
        exact ⟨.refl _, by simp, trivial⟩
      | cons x xs =>
        obtain ⟨a, b, c⟩ := fillPart_spec k
          (if xs = [] then (if idx = (if xs = [] then opened.eraseIdx idx else opened).length then 0 else idx) else (idx + 1) % opened.length)
          (if xs = [] then opened.eraseIdx idx else opened) (streams.set i xs)
        simp only [hs]
        refine ⟨?_, ?_, ?_⟩
        · rw [List.cons_append]
          exact (a.cons x).trans (flatten_set hs)
        · rw [List.length_cons]; omega
        · rw [c, List.length_set]

theorem fillParts_spec : ∀ (ps : List (Nat × List T3)) (opened : List Nat) (streams : List (List T3)), (∀ p ∈ ps, p.2.length ≤ p.1) →
    ((fillParts ps opened streams).1.flatMap (·.2) ++ (fillParts ps opened streams).2.flatten).Perm (ps.flatMap (·.2) ++ streams.flatten) ∧
      (∀ p ∈ (fillParts ps opened streams).1, p.2.length ≤ p.1) ∧ (fillParts ps opened streams).2.length = streams.length
  | [], _, _, _ => ⟨.refl _, by simp [fillParts], rfl⟩
  | (limit, part) :: ps, opened, streams, h => by
    obtain ⟨a, b, c⟩ := fillPart_spec (limit - part.length) 0 opened streams
    have hp := h (limit, part) (by simp)
    obtain ⟨a', b', c'⟩ := fillParts_spec ps (fillPart (limit - part.length) 0 opened streams).2.1 (fillPart (limit - part.length) 0 opened streams).2.2
      (fun p hp => h p (by simp [hp]))
    rw [fillParts]
    simp only
    refine ⟨?_, ?_, by rw [c', c]⟩
    · rw [List.flatMap_cons, List.flatMap_cons]
      simp only [List.append_assoc]
      refine List.Perm.append_left part ?_
      refine ((a'.append_left _).trans ?_)
      rw [← List.append_assoc]
      refine (List.perm_append_comm.append_right _).trans ?_
      rw [List.append_assoc]
      exact a.append_left _
    · intro p hp'
      rcases List.mem_cons.1 hp' with rfl | hp'
      · simp only at hp ⊢
        rw [List.length_append]
        omega
      · exact b' p hp'

theorem cut_perm (lim : Nat → Nat) : ∀ (l : List (List T3)) (k : Nat),
    (((l.zipIdx k).map fun x => (lim x.2, x.1.take (lim x.2))).flatMap (·.2) ++ ((l.zipIdx k).map fun x => x.1.drop (lim x.2)).flatten).Perm l.flatten
  | [], _ => .refl _
  | a :: l, k => by
    have ih := cut_perm lim l (k + 1)
    simp only [List.zipIdx_cons, List.map_cons, List.flatMap_cons, List.flatten_cons, List.append_assoc]
    conv => rhs; rw [← List.take_append_drop (lim k) a]
    rw [List.append_assoc]
    refine List.Perm.append_left _ ?_
    rw [← List.append_assoc]
    refine (List.perm_append_comm.append_right _).trans ?_
    rw [List.append_assoc]
    exact ih.append_left _

theorem limit_pos (c : Cfg) (i : Nat) : 0 < c.limit i := by
  unfold Cfg.limit
  simp only
  split <;> omega

theorem loadArray_spec (c : Cfg) (streams : List (List T3)) :
    ((loadArray c streams).1.flatMap (·.2) ++ (loadArray c streams).2.flatten).Perm streams.flatten ∧
      (∀ p ∈ (loadArray c streams).1, p.2.length ≤ p.1) ∧ (loadArray c streams).2.length = streams.length := by
  unfold loadArray
  simp only
  obtain ⟨a, b, d⟩ := fillParts_spec (streams.zipIdx.map fun x => (c.limit x.2, x.1.take (c.limit x.2)))
    ((List.range (streams.zipIdx.map fun x => x.1.drop (c.limit x.2)).length).filter fun i => (streams.zipIdx.map fun x => x.1.drop (c.limit x.2)).getD i [] ≠ [])
    (streams.zipIdx.map fun x => x.1.drop (c.limit x.2)) (by
      intro p hp
      obtain ⟨x, -, rfl⟩ := List.mem_map.1 hp
      simp only [List.length_take]
      omega)
  exact ⟨a.trans (cut_perm c.limit streams 0), b, by rw [d]; simp⟩

theorem fillParts_prefix : ∀ (ps : List (Nat × List T3)) (opened : List Nat) (streams : List (List T3)),
    (ps.flatMap (·.2)).length ≤ ((fillParts ps opened streams).1.flatMap (·.2)).length
  | [], _, _ => by simp
  | (limit, part) :: ps, opened, streams => by
    have := fillParts_prefix ps (fillPart (limit - part.length) 0 opened streams).2.1 (fillPart (limit - part.length) 0 opened streams).2.2
    rw [fillParts]
    simp only [List.flatMap_cons, List.length_append] at this ⊢
    omega

theorem loadArray_progress (c : Cfg) {streams : List (List T3)} (h : streams.all (·.isEmpty) = false) : 0 < ((loadArray c streams).1.flatMap (·.2)).length := by
  unfold loadArray
  simp only
  refine Nat.lt_of_lt_of_le ?_ (fillParts_prefix _ _ _)
  rw [List.all_eq_false] at h
  obtain ⟨l, hl, he⟩ := h
  obtain ⟨i, hi, rfl⟩ := List.getElem_of_mem hl
  rw [List.length_pos_iff]
  intro hnil
  rw [List.flatMap_eq_nil_iff] at hnil
  have := hnil (c.limit i, streams[i].take (c.limit i)) (List.mem_map.2 ⟨(streams[i], i), by simp [List.mem_zipIdx_iff_getElem?, hi], rfl⟩)
  simp only [List.take_eq_nil_iff] at this
  rcases this with h1 | h1
  · have := limit_pos c i; omega
  · rw [h1] at he; simp at he

/-! ## Sorting with the filler -/

/-- All ids are at most the number that five bytes 1 stand for. -/
def Small (t : T3) : Prop := t.1 ≤ 0x0101010101 ∧ t.2.1 ≤ 0x0101010101 ∧ t.2.2 ≤ 0x0101010101

theorem Small.fits {t : T3} (h : Small t) : Fits t := by obtain ⟨a, b, c⟩ := h; exact ⟨by omega, by omega, by omega⟩

theorem filler_eq : filler 15 = recOf (0x0101010101, 0x0101010101, 0x0101010101) := by decide +kernel

theorem small_le {t : T3} (h : Small t) : recOf t ≤ filler 15 := by
  rw [filler_eq, ← List.not_lt, recOf_lt (by unfold Fits; decide) h.fits]
  obtain ⟨a, b, c⟩ := h
  simp only [rowLt]
  omega

theorem permRow_small {p : Nat} {t : T3} (h : Small t) : Small (permRow p t) := by
  obtain ⟨h1, h2, h3⟩ := h
  unfold permRow
  split <;> exact ⟨by assumption, by assumption, by assumption⟩

theorem SortsRecs.sorted' {srt : List Rec → List Rec} (h : SortsRecs srt) (l : List Rec) : (srt l).Pairwise (· ≤ ·) :=
  (h.sorted l).imp fun h => recLess_false.1 h

theorem sort_filler {srt : List Rec → List Rec} (h : SortsRecs srt) {A L : List Rec} {k : Nat} {f : Rec} (hp : L.Perm (A ++ List.replicate k f))
    (hf : ∀ a ∈ A, a ≤ f) : srt L = srt A ++ List.replicate k f := by
  refine List.Perm.eq_of_pairwise (le := (· ≤ ·)) (fun a b _ _ h1 h2 => List.le_antisymm h1 h2) (h.sorted' L) ?_
    ((h.perm L).trans (hp.trans ((h.perm A).symm.append_right _)))
  rw [List.pairwise_append]
  refine ⟨h.sorted' A, ?_, ?_⟩
  · rw [List.pairwise_replicate]
    exact .inr (List.le_refl _)
  · intro a ha b hb
    rw [List.eq_of_mem_replicate hb]
    exact hf a ((h.perm A).mem_iff.1 ha)

theorem arrayOf_perm : ∀ (ps : List (Nat × List T3)), ∃ k, (arrayOf ps).Perm ((ps.flatMap (·.2)).map recOf ++ List.replicate k (filler 15))
  | [] => ⟨0, .refl _⟩
  | p :: ps => by
    obtain ⟨k, hk⟩ := arrayOf_perm ps
    refine ⟨(p.1 - p.2.length) + k, ?_⟩
    unfold arrayOf at hk ⊢
    rw [List.flatMap_cons, List.flatMap_cons, List.map_append, List.append_assoc, List.append_assoc, ← List.replicate_append_replicate]
    refine List.Perm.append_left _ ?_
    refine (hk.append_left _).trans ?_
    rw [← List.append_assoc, ← List.append_assoc]
    exact List.perm_append_comm.append_right _

/-- The sorted array: the records of the triples read, sorted, and then the filler. -/
theorem array_sorted {srt : List Rec → List Rec} (h : SortsRecs srt) {ps : List (Nat × List T3)} (hs : ∀ t ∈ ps.flatMap (·.2), Small t) :
    ∃ k, srt (arrayOf ps) = srt ((ps.flatMap (·.2)).map recOf) ++ List.replicate k (filler 15) := by
  obtain ⟨k, hk⟩ := arrayOf_perm ps
  refine ⟨k, sort_filler h hk ?_⟩
  intro a ha
  obtain ⟨t, ht, rfl⟩ := List.mem_map.1 ha
  exact small_le (hs t ht)

/-! ## Files -/

theorem cuts_cover (n size : Nat) (array : List Rec) : ∀ (k cur : Nat), 0 < k → cur ≤ size →
    ((cuts n size k cur).map fun x => ((array.drop x.1).take (x.2 - x.1)).map tripleOf).flatten = (((array.take size).drop cur).map tripleOf)
  | 0, _, h, _ => by omega
  | 1, cur, _, _ => by
    rw [cuts]
    simp [cuts, List.drop_take]
  | k + 2, cur, _, hc => by
    rw [cuts, if_neg (by omega)]
    simp only [List.map_cons, List.flatten_cons]
    rw [cuts_cover n size array (k + 1) _ (by omega) (by omega), ← List.map_append]
    congr 1
    have e : min (cur + max 1 (size / n)) size = cur + (min (cur + max 1 (size / n)) size - cur) := by omega
    generalize min (cur + max 1 (size / n)) size - cur = d at e ⊢
    rw [e, List.drop_take, List.drop_take, show size - (cur + d) = size - cur - d by omega, ← List.drop_drop,
      ← List.drop_take]
    have h2 : (array.drop cur).take d = ((array.drop cur).take (size - cur)).take d := by
      rw [List.take_take]
      congr 1
      omega
    rw [h2, List.take_append_drop]

theorem dump_flatten {n : Nat} (hn : 0 < n) (size : Nat) (array : List Rec) : (dump n size array).flatten = (array.take size).map tripleOf := by
  unfold dump
  rw [cuts_cover n size array n 0 hn (Nat.zero_le _), List.drop_zero]

/-- The files of a permutation: together a sorted permutation of the triples. -/
def Sorted (files : List (List T3)) (g : List T3) : Prop := files.flatten.Perm g ∧ files.flatten.Pairwise rowLe

theorem sorted_of {srt : List Rec → List Rec} (h : SortsRecs srt) {n : Nat} (hn : 0 < n) {g : List T3} (hg : ∀ t ∈ g, Fits t) {L : List Rec} (hL : L.Perm (g.map recOf))
    (rest : List Rec) : Sorted (dump n g.length (srt L ++ rest)) g := by
  have hp : (srt L).Perm (g.map recOf) := (h.perm L).trans hL
  have hl : (srt L).length = g.length := by rw [hp.length_eq, List.length_map]
  unfold Sorted
  rw [dump_flatten hn, List.take_left' hl]
  constructor
  · refine (hp.map _).trans ?_
    rw [List.map_map]
    refine .of_eq ?_
    conv => rhs; rw [← List.map_id g]
    exact List.map_congr_left fun t ht => tripleOf_recOf (hg t ht)
  · rw [List.pairwise_map]
    refine (h.sorted' L).imp_of_mem ?_
    intro a b ha hb hab
    obtain ⟨t, ht, rfl⟩ := List.mem_map.1 (hp.mem_iff.1 ha)
    obtain ⟨t', ht', rfl⟩ := List.mem_map.1 (hp.mem_iff.1 hb)
    rw [tripleOf_recOf (hg t ht), tripleOf_recOf (hg t' ht')]
    exact rowLe_of_rec (hg t ht) (hg t' ht') hab

/-- No permutation follows itself, and all are permutations. -/
def Chain : Nat → List Nat → Prop
  | p, [] => p < 6
  | p, q :: ps => p < 6 ∧ p ≠ q ∧ Chain q ps

theorem Chain.lt {p : Nat} {ps : List Nat} (h : Chain p ps) : p < 6 := by
  cases ps with
  | nil => exact h
  | cons q ps => exact h.1

theorem dumpRest_spec {srt : List Rec → List Rec} (h : SortsRecs srt) {n : Nat} (hn : 0 < n) {g : List T3} (hg : ∀ t ∈ g, Fits t) :
    ∀ (ps : List Nat) (cur : Nat) (L rest : List Rec), Chain cur ps → L.Perm (g.map fun t => recOf (permRow cur t)) →
      (dumpRest srt n g.length cur ps (L ++ rest)).length = ps.length ∧
      ∀ j p, ps[j]? = some p → Sorted ((dumpRest srt n g.length cur ps (L ++ rest)).getD j []) (g.map (permRow p))
  | [], _, _, _, _, _ => ⟨rfl, by simp⟩
  | q :: ps, cur, L, rest, hc, hL => by
    have hlen : L.length = g.length := by rw [hL.length_eq, List.length_map]
    have hL' : (L.map (permute cur q)).Perm ((g.map (permRow q)).map recOf) := by
      refine (hL.map _).trans ?_
      rw [List.map_map, List.map_map]
      refine .of_eq (List.map_congr_left fun t _ => ?_)
      exact permute_spec hc.1 hc.2.2.lt hc.2.1 t
    have hg' : ∀ t ∈ g.map (permRow q), Fits t := by
      intro t ht
      obtain ⟨x, hx, rfl⟩ := List.mem_map.1 ht
      exact permRow_fits (hg x hx)
    rw [dumpRest]
    simp only [List.take_left' hlen, List.drop_left' hlen]
    obtain ⟨l1, l2⟩ := dumpRest_spec h hn hg ps q (srt (L.map (permute cur q))) rest hc.2.2 (by
      refine (h.perm _).trans ?_
      rw [List.map_map] at hL'
      exact hL')
    refine ⟨by rw [List.length_cons, l1, List.length_cons], ?_⟩
    intro j p hj
    cases j with
    | zero =>
      simp only [List.getElem?_cons_zero, Option.some.injEq] at hj
      subst hj
      have := sorted_of h hn hg' hL' rest
      rw [List.length_map] at this
      simpa using this
    | succ j =>
      have := l2 j p (by simpa using hj)
      simpa using this

/-- One round. -/
theorem round_spec {srt : List Rec → List Rec} (h : SortsRecs srt) {c : Cfg} (hn : 0 < c.n) {p0 : Nat} {ps : List Nat} (hc : Chain p0 ps) {streams : List (List T3)}
    {g : List T3} (hp : streams.flatten.Perm (g.map (permRow p0))) (hg : ∀ t ∈ g, Small t) :
    ∃ g1 g2, g.Perm (g1 ++ g2) ∧ (round srt c p0 ps streams).2.flatten.Perm (g2.map (permRow p0)) ∧
      g1.length = ((loadArray c streams).1.flatMap (·.2)).length ∧
      ∀ j p, (p0 :: ps)[j]? = some p → Sorted ((round srt c p0 ps streams).1.getD j []) (g1.map (permRow p)) := by
  obtain ⟨a, b, d⟩ := loadArray_spec c streams
  have hp' := a.trans hp
  -- the triples read in this round
  have split : ∀ (A B : List T3) (g : List T3), (A ++ B).Perm (g.map (permRow p0)) → ∃ g1 g2, g.Perm (g1 ++ g2) ∧ A = g1.map (permRow p0) ∧ B = g2.map (permRow p0) := by
    have one : ∀ (A : List T3) (g : List T3), A.Perm (g.map (permRow p0)) → ∃ g', g.Perm g' ∧ A = g'.map (permRow p0) := by
      intro A
      induction A with
      | nil =>
        intro g hg
        have : g = [] := by simpa using hg.symm.eq_nil
        exact ⟨[], by rw [this], rfl⟩
      | cons x A ih =>
        intro g hg
        obtain ⟨y, hy, rfl⟩ := List.mem_map.1 (hg.mem_iff.1 (List.mem_cons_self))
        obtain ⟨u, v, rfl⟩ := List.append_of_mem hy
        rw [List.map_append, List.map_cons] at hg
        have := (hg.trans List.perm_middle).cons_inv
        rw [← List.map_append] at this
        obtain ⟨g', h1, h2⟩ := ih _ this
        exact ⟨y :: g', List.perm_middle.trans (h1.cons y), by rw [h2]; rfl⟩
    intro A B g hg
    obtain ⟨g', h1, h2⟩ := one _ g hg
    refine ⟨g'.take A.length, g'.drop A.length, by rw [List.take_append_drop]; exact h1, ?_, ?_⟩
    · rw [List.map_take, ← h2, List.take_left]
    · rw [List.map_drop, ← h2, List.drop_left]
  obtain ⟨g1, g2, s1, s2, s3⟩ := split _ _ g hp'
  have hs1 : ∀ t ∈ g1, Small t := fun t ht => hg t (s1.mem_iff.2 (List.mem_append.2 (.inl ht)))
  have hlen : ((loadArray c streams).1.map fun p => p.2.length).sum = g1.length := by
    have : ((loadArray c streams).1.flatMap (·.2)).length = g1.length := by rw [s2, List.length_map]
    rw [← this, List.length_flatMap]
  refine ⟨g1, g2, s1, by unfold round; simp only; rw [s3], by rw [s2, List.length_map], ?_⟩
  obtain ⟨k, hk⟩ := array_sorted h (ps := (loadArray c streams).1) (by
    intro t ht
    rw [s2] at ht
    obtain ⟨x, hx, rfl⟩ := List.mem_map.1 ht
    exact permRow_small (hs1 x hx))
  unfold round
  simp only [hlen, hk, s2]
  intro j p hj
  cases j with
  | zero =>
    simp only [List.getElem?_cons_zero, Option.some.injEq] at hj
    subst hj
    have := sorted_of h hn (g := g1.map (permRow p0)) (by
      intro t ht
      obtain ⟨x, hx, rfl⟩ := List.mem_map.1 ht
      exact permRow_fits (hs1 x hx).fits) (.refl _) (List.replicate k (filler 15))
    rw [List.length_map] at this
    simpa using this
  | succ j =>
    have := (dumpRest_spec h hn (fun t ht => (hs1 t ht).fits) ps p0 (srt ((g1.map (permRow p0)).map recOf)) (List.replicate k (filler 15)) hc (by
      refine (h.perm _).trans ?_
      rw [List.map_map]
      exact .refl _)).2 j p (by simpa using hj)
    simpa using this

/-- All rounds: the chunks of a permutation are sorted, and have together all triples. -/
theorem rounds_spec {srt : List Rec → List Rec} (h : SortsRecs srt) {c : Cfg} (hn : 0 < c.n) {p0 : Nat} {ps : List Nat} (hc : Chain p0 ps) :
    ∀ (fuel : Nat) (streams : List (List T3)) (g : List T3), streams.flatten.Perm (g.map (permRow p0)) → (∀ t ∈ g, Small t) → g.length ≤ fuel →
      ∀ j p, (p0 :: ps)[j]? = some p →
        ((rounds srt c p0 ps fuel streams).flatMap fun r => (r.getD j []).flatten).Perm (g.map (permRow p)) ∧
        ∀ r ∈ rounds srt c p0 ps fuel streams, ((r.getD j []).flatten).Pairwise rowLe
  | 0, streams, g, hp, hg, hf => by
    have : g = [] := List.eq_nil_of_length_eq_zero (by omega)
    subst this
    intro j p _
    exact ⟨.refl _, by simp [rounds]⟩
  | fuel + 1, streams, g, hp, hg, hf => by
    intro j p hj
    rw [rounds]
    cases ha : streams.all (·.isEmpty) with
    | true =>
      have : streams.flatten = [] := by
        rw [List.flatten_eq_nil_iff]
        intro l hl
        have := List.all_eq_true.1 ha l hl
        simpa using this
      rw [this] at hp
      have hg0 : g = [] := by simpa using hp.symm.eq_nil
      subst hg0
      exact ⟨.refl _, by simp⟩
    | false =>
      obtain ⟨g1, g2, q1, q2, q3, q4⟩ := round_spec h hn hc hp hg
      have hpos := loadArray_progress c ha
      have hlen := q1.length_eq
      rw [List.length_append] at hlen
      obtain ⟨r1, r2⟩ := rounds_spec h hn hc fuel (round srt c p0 ps streams).2 g2 q2
        (fun t ht => hg t (q1.mem_iff.2 (List.mem_append.2 (.inr ht)))) (by omega) j p hj
      obtain ⟨t1, t2⟩ := q4 j p hj
      simp only [Bool.false_eq_true, if_false]
      constructor
      · rw [List.flatMap_cons]
        refine (t1.append r1).trans ?_
        rw [← List.map_append]
        exact (q1.map _).symm
      · intro r hr
        rcases List.mem_cons.1 hr with rfl | hr
        · exact t2
        · exact r2 r hr

/-! ## Streams -/

theorem assign_perm {α : Type} {n : Nat} (hn : 0 < n) (files : List (List α)) : (assign n files).flatten.Perm files.flatten := by
  have gen : ∀ (files : List (List α)) (k : Nat),
      ((List.range n).flatMap fun i => ((files.zipIdx k).filter fun x => x.2 % n = i).flatMap (·.1)).Perm files.flatten := by
    intro files
    induction files with
    | nil =>
      intro k
      simp only [List.zipIdx_nil, List.filter_nil, List.flatMap_nil, List.flatten_nil]
      rw [List.flatMap_eq_nil_iff.2 (fun _ _ => rfl)]
    | cons f files ih =>
      intro k
      rw [List.flatten_cons, List.zipIdx_cons]
      refine List.Perm.trans ?_ ((ih (k + 1)).append_left f)
      have aux : ∀ (l : List Nat) (F : Nat → List α), l.Nodup →
          (l.flatMap fun i => (if k % n = i then f ++ F i else F i)).Perm ((if k % n ∈ l then f else []) ++ l.flatMap F) := by
        intro l F
        induction l with
        | nil => intro _; simp
        | cons i l ih2 =>
          intro hnd
          rw [List.nodup_cons] at hnd
          rw [List.flatMap_cons, List.flatMap_cons]
          by_cases hi : k % n = i
          · rw [if_pos hi, if_pos (by simp [hi])]
            have hni : k % n ∉ l := by rw [hi]; exact hnd.1
            have := ih2 hnd.2
            rw [if_neg hni, List.nil_append] at this
            rw [List.append_assoc]
            exact (this.append_left _).append_left _
          · rw [if_neg hi]
            have hm : (k % n ∈ i :: l) ↔ k % n ∈ l := by
              rw [List.mem_cons]
              exact ⟨fun h => h.resolve_left hi, .inr⟩
            simp only [hm]
            refine ((ih2 hnd.2).append_left _).trans ?_
            rw [← List.append_assoc, ← List.append_assoc]
            exact List.perm_append_comm.append_right _
      have := aux (List.range n) (fun i => ((files.zipIdx (k + 1)).filter fun x => x.2 % n = i).flatMap (·.1)) List.nodup_range
      rw [if_pos (List.mem_range.2 (Nat.mod_lt _ hn))] at this
      refine List.Perm.trans (.of_eq ?_) this
      congr 1
      funext i
      rw [List.filter_cons]
      by_cases hi : k % n = i
      · simp [hi]
      · simp [hi]
  unfold assign
  rw [← List.flatMap_def]
  exact gen files 0

theorem index_perm {n io : Nat} (h : io ∣ n) (hio : 0 < io) : ((List.range n).map fun i => i % io * (n / io) + i / io).Perm (List.range n) := by
  obtain ⟨q, rfl⟩ := h
  rw [Nat.mul_div_cancel_left q hio]
  have hlt : ∀ i < io * q, i / io < q := fun i hi => by rw [Nat.div_lt_iff_lt_mul hio, Nat.mul_comm]; exact hi
  have hbound : ∀ i < io * q, i % io * q + i / io < io * q := by
    intro i hi
    have h1 := Nat.mod_lt i hio
    have h2 := hlt i hi
    have h3 : (i % io + 1) * q ≤ io * q := Nat.mul_le_mul_right q h1
    rw [Nat.add_mul, Nat.one_mul] at h3
    omega
  have hinj : ∀ i < io * q, ∀ i' < io * q, i % io * q + i / io = i' % io * q + i' / io → i = i' := by
    intro i hi i' hi' e
    have h2 := hlt i hi
    have h2' := hlt i' hi'
    have hq : 0 < q := Nat.lt_of_le_of_lt (Nat.zero_le _) h2
    have d := congrArg (· / q) e
    have m := congrArg (· % q) e
    simp only [Nat.mul_comm _ q, Nat.mul_add_div hq, Nat.div_eq_of_lt h2, Nat.div_eq_of_lt h2', Nat.add_zero, Nat.mul_add_mod, Nat.mod_eq_of_lt h2, Nat.mod_eq_of_lt h2'] at d m
    rw [← Nat.div_add_mod i io, ← Nat.div_add_mod i' io, d, m]
  have hnd : ((List.range (io * q)).map fun i => i % io * q + i / io).Nodup := by
    unfold List.Nodup
    rw [List.pairwise_map]
    refine (List.nodup_range (n := io * q)).imp_of_mem ?_
    intro a b ha hb hab e
    exact hab (hinj a (List.mem_range.1 ha) b (List.mem_range.1 hb) e)
  have hsub : ((List.range (io * q)).map fun i => i % io * q + i / io) ⊆ List.range (io * q) := by
    intro x hx
    obtain ⟨i, hi, rfl⟩ := List.mem_map.1 hx
    exact List.mem_range.2 (hbound i (List.mem_range.1 hi))
  rw [List.perm_ext_iff_of_nodup hnd List.nodup_range]
  intro a
  refine ⟨fun h => hsub h, fun ha => ?_⟩
  apply Classical.byContradiction
  intro hna
  have h2 : (a :: (List.range (io * q)).map fun i => i % io * q + i / io).Nodup := List.nodup_cons.2 ⟨hna, hnd⟩
  have := h2.length_le_of_subset (l₂ := List.range (io * q)) (by
    intro x hx
    rcases List.mem_cons.1 hx with rfl | hx
    · exact ha
    · exact hsub hx)
  simp at this
  omega

theorem streams_perm {α : Type} {n io : Nat} (hn : 0 < n) (h : io ∣ n) (files : List (List α)) :
    ∃ s, streamsOf n io files = some s ∧ s.flatten.Perm files.flatten := by
  have hio : 0 < io := Nat.pos_of_dvd_of_pos h hn
  have hlt : ∀ i < n, i / io < n / io := by
    intro i hi
    obtain ⟨q, rfl⟩ := h
    rw [Nat.mul_div_cancel_left q hio, Nat.div_lt_iff_lt_mul hio, Nat.mul_comm]
    exact hi
  have hm : ∀ l : List Nat, (∀ i ∈ l, i < n) →
      (l.mapM fun i => (streamIndex n io i).map fun k => (assign n files).getD k []) = some (l.map fun i => (assign n files).getD (i % io * (n / io) + i / io) []) := by
    intro l
    induction l with
    | nil => intro _; rfl
    | cons i l ih =>
      intro hl
      rw [List.mapM_cons, ih (fun j hj => hl j (by simp [hj])), streamIndex, if_pos (hlt i (hl i (by simp)))]
      rfl
  refine ⟨_, hm (List.range n) (fun i hi => List.mem_range.1 hi), ?_⟩
  have e : ((List.range n).map fun i => (assign n files).getD (i % io * (n / io) + i / io) []) =
      ((List.range n).map fun i => i % io * (n / io) + i / io).map fun k => (assign n files).getD k [] := by rw [List.map_map]; rfl
  rw [e]
  refine (((index_perm h hio).map _).flatten).trans ?_
  have hid : ((List.range n).map fun k => (assign n files).getD k []) = assign n files := by
    have hl : (assign n files).length = n := by simp [assign]
    apply List.ext_getElem
    · simp [hl]
    · intro i h1 h2
      simp [List.getElem?_eq_getElem h2]
  rw [hid]
  exact assign_perm hn files

/-- The whole sort. -/
theorem sort_spec {srt : List Rec → List Rec} (h : SortsRecs srt) {nthreads ionthreads maxElements estimated p0 : Nat} {ps : List Nat} (hc : Chain p0 ps)
    {files : List (List T3)} (hio : ionthreads ∣ nthreads) (hnt : 0 < nthreads) (hs : ∀ f ∈ files, ∀ t ∈ f, Small t) :
    ∃ out, sortChunks2 srt nthreads ionthreads maxElements estimated p0 ps (files.map fun f => f.map (permRow p0)) = some out ∧
      ∀ j p, (p0 :: ps)[j]? = some p → (out.flatMap fun r => (r.getD j []).flatten).Perm (files.flatten.map (permRow p)) ∧
        ∀ r ∈ out, ((r.getD j []).flatten).Pairwise rowLe := by
  unfold sortChunks2
  simp only [List.length_map]
  have hn : 0 < max 1 (min files.length nthreads) := by omega
  have hdvd : (if max 1 (min files.length nthreads) < nthreads then 1 else ionthreads) ∣ max 1 (min files.length nthreads) := by
    split
    · exact Nat.one_dvd _
    · have : max 1 (min files.length nthreads) = nthreads := by omega
      rw [this]; exact hio
  obtain ⟨s, h1, h2⟩ := streams_perm hn hdvd (files.map fun f => f.map (permRow p0))
  have h2' : s.flatten.Perm (files.flatten.map (permRow p0)) := by
    refine h2.trans (.of_eq ?_)
    rw [List.map_flatten]
  rw [h1]
  refine ⟨_, rfl, ?_⟩
  intro j p hj
  refine rounds_spec h hn hc _ s files.flatten h2' ?_ ?_ j p hj
  · intro t ht
    obtain ⟨f, hf, ht⟩ := List.mem_flatten.1 ht
    exact hs f hf t ht
  · have := h2'.length_eq
    rw [List.length_flatten, List.length_map] at this
    omega

end Trident.PermSorter
