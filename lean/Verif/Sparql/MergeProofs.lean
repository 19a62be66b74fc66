import Verif.Sparql.MergeJoin
/-! # Invariant of the merge join -/
namespace Trident.Sparql.Merge

/-- The contribution of a pair. -/
def pr (t : Tup) (l r : Row) : Nat := if key l = key r ∧ l.2 ++ r.2 = t then l.1 * r.1 else 0

/-- The contribution of all pairs. -/
def J (L R : List Row) (t : Tup) : Nat := (L.map fun l => (R.map fun r => pr t l r).sum).sum

theorem J_nil_left (R : List Row) (t : Tup) : J [] R t = 0 := rfl

theorem J_nil_right (L : List Row) (t : Tup) : J L [] t = 0 := by
  induction L with
  | nil => rfl
  | cons l L ih => simpa [J] using ih

theorem J_cons_left (l : Row) (L R : List Row) (t : Tup) : J (l :: L) R t = J [l] R t + J L R t := by simp [J]

theorem J_cons_right (L : List Row) (r : Row) (R : List Row) (t : Tup) : J L (r :: R) t = J L [r] t + J L R t := by
  induction L with
  | nil => rfl
  | cons l L ih =>
    rw [J_cons_left, J_cons_left l L, J_cons_left l L, ih]
    have : J [l] (r :: R) t = J [l] [r] t + J [l] R t := by simp [J]
    omega

theorem J_append_right (L R R' : List Row) (t : Tup) : J L (R ++ R') t = J L R t + J L R' t := by
  induction R with
  | nil => rw [J_nil_right]; simp
  | cons r R ih => rw [List.cons_append, J_cons_right, ih, J_cons_right L r R]; omega

theorem J_single (l r : Row) (t : Tup) : J [l] [r] t = pr t l r := by simp [J]

theorem J_zero {L R : List Row} {t : Tup} (h : ∀ l ∈ L, ∀ r ∈ R, key l ≠ key r) : J L R t = 0 := by
  induction L with
  | nil => rfl
  | cons l L ih =>
    rw [J_cons_left, ih fun l' hl' => h l' (List.mem_cons_of_mem _ hl')]
    have : ∀ R : List Row, (∀ r ∈ R, key l ≠ key r) → J [l] R t = 0 := by
      intro R
      induction R with
      | nil => intro _; rfl
      | cons r R ih' =>
        intro hR
        rw [J_cons_right, J_single, pr, if_neg fun x => hR r (by simp) x.1, ih' fun r' hr' => hR r' (List.mem_cons_of_mem _ hr')]
    rw [this R (h l (by simp))]

theorem J_pair {l r : Row} (h : key l = key r) (t : Tup) : J [l] [r] t = if l.2 ++ r.2 = t then l.1 * r.1 else 0 := by
  rw [J_single, pr]
  by_cases hh : l.2 ++ r.2 = t
  · rw [if_pos hh, if_pos ⟨h, hh⟩]
  · rw [if_neg hh, if_neg fun x => hh x.2]

/-- Sorted by the join value, and no row with multiplicity 0. -/
def Fine (L : List Row) : Prop := L.Pairwise (fun a b => key a ≤ key b) ∧ ∀ x ∈ L, x.1 ≠ 0

theorem Fine.tail {x : Row} {L : List Row} (h : Fine (x :: L)) : Fine L :=
  ⟨(List.pairwise_cons.1 h.1).2, fun y hy => h.2 y (List.mem_cons_of_mem _ hy)⟩

theorem Fine.le {x : Row} {L : List Row} (h : Fine (x :: L)) : ∀ y ∈ L, key x ≤ key y := (List.pairwise_cons.1 h.1).1

theorem Fine.sub {L L' : List Row} (h : Fine L) (hs : L'.Sublist L) : Fine L' :=
  ⟨h.1.sublist hs, fun x hx => h.2 x (hs.subset hx)⟩

theorem fine_cons {x : Row} {L : List Row} (h : Fine L) (h0 : x.1 ≠ 0) (hx : ∀ y ∈ L, key x ≤ key y) : Fine (x :: L) :=
  ⟨List.pairwise_cons.2 ⟨hx, h.1⟩, fun y hy => (List.mem_cons.1 hy).elim (fun e => e ▸ h0) (h.2 y)⟩

theorem dropWhile_J {v : Nat} {L X : List Row} (hX : ∀ x ∈ X, v ≤ key x) (t : Tup) :
    J (L.dropWhile fun x => key x < v) X t = J L X t ∧ J X (L.dropWhile fun x => key x < v) t = J X L t := by
  induction L with
  | nil => exact ⟨rfl, rfl⟩
  | cons l L ih =>
    rw [List.dropWhile_cons]
    by_cases h : key l < v
    · rw [if_pos (by simpa using h), ih.1, ih.2, J_cons_left l L, J_cons_right X l L]
      have h1 : J [l] X t = 0 := J_zero (by
        intro a ha r hr; rw [List.mem_singleton.1 ha]; have := hX r hr; omega)
      have h2 : J X [l] t = 0 := J_zero (by
        intro r hr a ha; rw [List.mem_singleton.1 ha]; have := hX r hr; omega)
      omega
    · rw [if_neg (by simpa using h)]; exact ⟨rfl, rfl⟩

theorem skip_spec (b : Bool) (v : Nat) (L : List Row) :
    (if b then skip v L else L).Sublist L ∧ ∀ X : List Row, (∀ x ∈ X, v ≤ key x) → ∀ t,
      J (if b then skip v L else L) X t = J L X t ∧ J X (if b then skip v L else L) t = J X L t := by
  cases b with
  | false => exact ⟨List.Sublist.refl _, fun X _ t => ⟨rfl, rfl⟩⟩
  | true =>
    rw [if_pos rfl, skip]
    split
    · exact ⟨List.Sublist.refl _, fun X _ t => ⟨rfl, rfl⟩⟩
    · exact ⟨List.dropWhile_sublist _, fun X hX t => dropWhile_J hX t⟩

theorem nextLeft_spec (e : Env) (a : MJ) : ∃ L : List Row, L.Sublist a.ls ∧
    (∀ X : List Row, (∀ x ∈ X, key a.r ≤ key x) → ∀ t, J a.ls X t = J L X t) ∧
    ((L = [] ∧ a.nextLeft e = { a with l := (0, e.jl), ls := [], nl := a.nl + 1 }) ∨
      ∃ x ls, L = x :: ls ∧ a.nextLeft e = { a with l := x, ls := ls, nl := a.nl + 1 }) := by
  obtain ⟨h1, h2⟩ := skip_spec (e.hl a.nl) (key a.r) a.ls
  refine ⟨_, h1, fun X hX t => (h2 X hX t).1.symm, ?_⟩
  unfold MJ.nextLeft
  generalize (if e.hl a.nl then skip (key a.r) a.ls else a.ls) = L
  match L with
  | [] => exact Or.inl ⟨rfl, rfl⟩
  | x :: ls => exact Or.inr ⟨x, ls, rfl, rfl⟩

theorem nextRight_spec (e : Env) (a : MJ) : ∃ R : List Row, R.Sublist a.rs ∧
    (∀ X : List Row, (∀ x ∈ X, key a.l ≤ key x) → ∀ t, J X a.rs t = J X R t) ∧
    ((R = [] ∧ a.nextRight e = { a with r := (0, e.jr), rs := [], nr := a.nr + 1 }) ∨
      ∃ x rs, R = x :: rs ∧ a.nextRight e = { a with r := x, rs := rs, nr := a.nr + 1 }) := by
  obtain ⟨h1, h2⟩ := skip_spec (e.hr a.nr) (key a.l) a.rs
  refine ⟨_, h1, fun X hX t => (h2 X hX t).2.symm, ?_⟩
  unfold MJ.nextRight
  generalize (if e.hr a.nr then skip (key a.l) a.rs else a.rs) = L
  match L with
  | [] => exact Or.inl ⟨rfl, rfl⟩
  | x :: ls => exact Or.inr ⟨x, ls, rfl, rfl⟩

theorem spool_spec (k : Nat) (l : List Row) (hl : Fine l) (hk : ∀ x ∈ l, k ≤ key x) :
    l = (spool k l).1 ++ (spool k l).2 ∧ (∀ x ∈ (spool k l).1, key x = k) ∧ (∀ x ∈ (spool k l).2, k < key x) := by
  induction l with
  | nil => exact ⟨rfl, by simp [spool], by simp [spool]⟩
  | cons x l ih =>
    rw [spool]
    by_cases h : key x ≠ k
    · rw [if_pos h]
      refine ⟨rfl, by simp, ?_⟩
      have := hk x (by simp)
      intro y hy
      rcases List.mem_cons.1 hy with e | e
      · subst e; show k < key y; omega
      · have := hl.le y e; omega
    · rw [if_neg h]
      obtain ⟨h1, h2, h3⟩ := ih hl.tail fun y hy => hk y (List.mem_cons_of_mem _ hy)
      refine ⟨by show x :: l = x :: (_ ++ _); rw [← h1], ?_, h3⟩
      intro y hy
      rcases List.mem_cons.1 hy with e | e
      · subst e; omega
      · exact h2 y e

theorem col_append {l r : Row} (h : key l = key r) : col (l.2 ++ r.2) 0 = key l := by
  obtain ⟨n, t⟩ := l
  cases t with
  | nil => exact h.symm
  | cons x t => rfl

theorem J_ne {L R : List Row} {t : Tup} (h : J L R t ≠ 0) : ∃ l ∈ L, ∃ r ∈ R, key l = key r ∧ l.2 ++ r.2 = t := by
  have h0 : ¬ ∀ n ∈ L.map fun l => (R.map fun r => pr t l r).sum, n = 0 := fun h' => h (List.sum_eq_zero_iff_forall_eq_nat.2 h')
  simp only [List.mem_map, Classical.not_forall] at h0
  obtain ⟨_, ⟨l, hl, rfl⟩, h1⟩ := h0
  have h2 : ¬ ∀ n ∈ R.map fun r => pr t l r, n = 0 := fun h' => h1 (List.sum_eq_zero_iff_forall_eq_nat.2 h')
  simp only [List.mem_map, Classical.not_forall] at h2
  obtain ⟨_, ⟨r, hr, rfl⟩, h3⟩ := h2
  refine ⟨l, hl, r, hr, ?_⟩
  by_cases hh : key l = key r ∧ l.2 ++ r.2 = t
  · exact hh
  · exact absurd (by rw [pr, if_neg hh]) h3

theorem low_left {L R : List Row} {k : Nat} (h : ∀ l ∈ L, k ≤ key l) {t : Tup} (ht : J L R t ≠ 0) : k ≤ col t 0 := by
  obtain ⟨l, hl, r, hr, hk, rfl⟩ := J_ne ht
  rw [col_append hk]; exact h l hl

theorem low_right {L R : List Row} {k : Nat} (h : ∀ r ∈ R, k ≤ key r) {t : Tup} (ht : J L R t ≠ 0) : k ≤ col t 0 := by
  obtain ⟨l, hl, r, hr, hk, rfl⟩ := J_ne ht
  rw [col_append hk, hk]; exact h r hr

theorem cons_le {x : Row} {L : List Row} {k : Nat} (hx : k ≤ key x) (h : ∀ y ∈ L, k ≤ key y) : ∀ y ∈ x :: L, k ≤ key y :=
  fun y hy => (List.mem_cons.1 hy).elim (fun e => e ▸ hx) (h y)

/-- The states of an inner join, with a measure and the rows that are still to come. -/
inductive Inv (a : MJ) : Nat → Nat → (Tup → Nat) → Prop
  | has : a.st = .scanHasBoth → Fine (a.l :: a.ls) → Fine (a.r :: a.rs) →
      Inv a (a.ls.length + a.rs.length + 2) 1 (J (a.l :: a.ls) (a.r :: a.rs))
  | swapped : a.st = .scanHasBothSwapped → Fine (a.lsh :: a.ls) → Fine (a.rsh :: a.rs) →
      Inv a (a.ls.length + a.rs.length + 2) 2 (J (a.lsh :: a.ls) (a.rsh :: a.rs))
  | stepL : a.st = .scanStepLeft → Fine a.ls → Fine (a.r :: a.rs) → Inv a (a.ls.length + a.rs.length + 2) 0 (J a.ls (a.r :: a.rs))
  | stepR : a.st = .scanStepRight → Fine (a.l :: a.ls) → Fine a.rs → Inv a (a.ls.length + a.rs.length + 2) 0 (J (a.l :: a.ls) a.rs)
  | emptyL : a.st = .loopEmptyLeft → Fine a.rs → a.l.1 ≠ 0 → Inv a a.rs.length 0 (J [a.l] a.rs)
  | emptyRD : a.st = .loopEmptyRightHasData → Fine (a.lsh :: a.ls) → a.r.1 ≠ 0 → Inv a (a.ls.length + 1) 0 (J (a.lsh :: a.ls) [a.r])
  | emptyR : a.st = .loopEmptyRight → Fine a.ls → a.r.1 ≠ 0 → Inv a a.ls.length 0 (J a.ls [a.r])
  | eqLD : a.st = .loopEqualLeftHasData → key a.lsh = key a.r → key a.l = key a.r → key a.r < key a.rsh → Fine (a.lsh :: a.ls) → Fine (a.rsh :: a.rs) → a.r.1 ≠ 0 →
      Inv a (a.ls.length + a.rs.length + 3) 0 (J (a.lsh :: a.ls) (a.r :: a.rsh :: a.rs))
  | eqL : a.st = .loopEqualLeft → key a.lsh = key a.r → key a.r < key a.rsh → Fine a.ls → (∀ x ∈ a.ls, key a.r ≤ key x) → Fine (a.rsh :: a.rs) → a.r.1 ≠ 0 →
      Inv a (a.ls.length + a.rs.length + 2) 0 (J a.ls (a.r :: a.rsh :: a.rs))
  | eqRD : a.st = .loopEqualRightHasData → key a.rsh = key a.l → key a.r = key a.l → key a.l < key a.lsh → Fine (a.rsh :: a.rs) → Fine (a.lsh :: a.ls) → a.l.1 ≠ 0 →
      Inv a (a.ls.length + a.rs.length + 3) 0 (J (a.l :: a.lsh :: a.ls) (a.rsh :: a.rs))
  | eqR : a.st = .loopEqualRight → key a.rsh = key a.l → key a.l < key a.lsh → Fine a.rs → (∀ x ∈ a.rs, key a.l ≤ key x) → Fine (a.lsh :: a.ls) → a.l.1 ≠ 0 →
      Inv a (a.ls.length + a.rs.length + 2) 0 (J (a.l :: a.lsh :: a.ls) a.rs)
  | sp (X : List Row) (k : Nat) : (a.st = .loopSpooledRightEmpty ∧ X = [] ∨ a.st = .loopSpooledRightHasData ∧ X = a.rsh :: a.rs) →
      Fine a.ls → (∀ x ∈ a.ls, k ≤ key x) → Fine X → (∀ x ∈ X, k < key x) → (∀ x ∈ a.buf, key x = k) → (∀ x ∈ a.bi, key x = k) → key a.l = k → key a.lsh = k →
      (a.bi = [] → key a.r = k) → a.buf ≠ [] → a.l.1 ≠ 0 → a.lsh.1 ≠ 0 → (∀ x ∈ a.buf, x.1 ≠ 0) → (∀ x ∈ a.bi, x.1 ≠ 0) →
      Inv a (a.ls.length + (if a.inCopy then 1 else 0) + X.length + 1) a.bi.length
        (fun t => J [a.l] a.bi t + J (if a.inCopy then a.lsh :: a.ls else a.ls) (a.buf ++ X) t)

/-- What a round may do. -/
def Ok (p q : Nat) (B : Tup → Nat) : Step MJ → Prop
  | .stop => ∀ t, B t = 0
  | .go a => ∃ p' q' B', Inv a p' q' B' ∧ (p' < p ∨ p' = p ∧ q' < q) ∧ ∀ t, B t = B' t
  | .emit x a => ∃ p' q' B', Inv a p' q' B' ∧ (p' < p ∨ p' = p ∧ q' < q) ∧ (∀ t, B t = (if x.2 = t then x.1 else 0) + B' t) ∧
      x.1 ≠ 0 ∧ ∀ t, B t ≠ 0 → col x.2 0 ≤ col t 0

theorem Ok.mono {p q p' q' : Nat} {B B' : Tup → Nat} {s : Step MJ} (h : Ok p q B s) (hp : p < p' ∨ p = p' ∧ q ≤ q') (hB : ∀ t, B' t = B t) : Ok p' q' B' s := by
  have : B' = B := funext hB
  subst this
  match s, h with
  | .stop, h => exact h
  | .go a, ⟨p1, q1, B1, h1, h2, h3⟩ => exact ⟨p1, q1, B1, h1, by omega, h3⟩
  | .emit x a, ⟨p1, q1, B1, h1, h2, h3⟩ => exact ⟨p1, q1, B1, h1, by omega, h3⟩

theorem ok_emit {p q p' q' : Nat} {B B' : Tup → Nat} {x : Row} {a : MJ} (h : Inv a p' q' B') (hp : p' < p ∨ p' = p ∧ q' < q) {n : Nat} {u : Tup}
    (h1 : x.1 = n) (h2 : x.2 = u) (hB : ∀ t, B t = (if u = t then n else 0) + B' t) (hn : n ≠ 0) {k : Nat} (hk : col u 0 = k) (hlow : ∀ t, B t ≠ 0 → k ≤ col t 0) :
    Ok p q B (.emit x a) := by
  subst h1; subst h2; subst hk
  exact ⟨p', q', B', h, hp, hB, hn, hlow⟩

theorem ok_go {p q p' q' : Nat} {B B' : Tup → Nat} {a : MJ} (h : Inv a p' q' B') (hp : p' < p ∨ p' = p ∧ q' < q)
    (hB : ∀ t, B t = B' t) : Ok p q B (.go a) := ⟨p', q', B', h, hp, hB⟩

theorem handleNM_spec (e : Env) (f : MJ) {b X : List Row} (h : spool (key f.r) (f.rsh :: f.rs) = (b, X)) :
    (f.handleNM e).ls = f.ls ∧ (f.handleNM e).l = f.l ∧ (f.handleNM e).lsh = f.lsh ∧ (f.handleNM e).buf = f.r :: b ∧ (f.handleNM e).bi = f.r :: b ∧
      (f.handleNM e).inCopy = true ∧
      ((f.handleNM e).st = .loopSpooledRightEmpty ∧ X = [] ∨ (f.handleNM e).st = .loopSpooledRightHasData ∧ X = (f.handleNM e).rsh :: (f.handleNM e).rs) := by
  unfold MJ.handleNM
  dsimp only
  rw [h]
  match X with
  | [] => exact ⟨rfl, rfl, rfl, rfl, rfl, rfl, Or.inl ⟨rfl, rfl⟩⟩
  | z :: X => exact ⟨rfl, rfl, rfl, rfl, rfl, rfl, Or.inr ⟨rfl, rfl⟩⟩

theorem lt_zero {l : Row} {L : List Row} (hf : ∀ x ∈ L, key l < key x) (t : Tup) : J [l] L t = 0 ∧ J L [l] t = 0 :=
  ⟨J_zero (by intro u hu v hv; rw [List.mem_singleton.1 hu]; have := hf v hv; omega),
    J_zero (by intro v hv u hu; rw [List.mem_singleton.1 hu]; have := hf v hv; omega)⟩

theorem Fine.all_lt {k : Nat} {x : Row} {L : List Row} (h : Fine (x :: L)) (hk : k < key x) : ∀ y ∈ x :: L, k < key y := by
  intro y hy
  rcases List.mem_cons.1 hy with e1 | e1
  · rw [e1]; exact hk
  · have := h.le y e1; omega

theorem block_ok (e : Env) (f : MJ) (hk : key f.l = key f.r) (hfL : Fine (f.lsh :: f.ls)) (hkL : key f.l ≤ key f.lsh) (hfR : Fine (f.rsh :: f.rs))
    (hkR : key f.r ≤ key f.rsh) (hl0 : f.l.1 ≠ 0) (hr0 : f.r.1 ≠ 0) : Ok (f.ls.length + f.rs.length + 4) 0 (J (f.l :: f.lsh :: f.ls) (f.r :: f.rsh :: f.rs)) (block e f) := by
  unfold block
  have hlow : ∀ t, J (f.l :: f.lsh :: f.ls) (f.r :: f.rsh :: f.rs) t ≠ 0 → key f.l ≤ col t 0 := fun t => low_left (cons_le (Nat.le_refl _) (cons_le hkL fun y hy => by
    have := hfL.le y hy; omega))
  by_cases h3 : key f.l = key f.lsh
  · rw [if_pos h3]
    by_cases h4 : key f.r = key f.rsh
    · rw [if_pos h4]
      obtain ⟨s1, s2, s3⟩ := spool_spec (key f.r) (f.rsh :: f.rs) hfR (by
        intro y hy
        rcases List.mem_cons.1 hy with e1 | e1
        · rw [e1]; exact hkR
        · have := hfR.le y e1; omega)
      generalize hp : spool (key f.r) (f.rsh :: f.rs) = p at s1 s2 s3
      obtain ⟨b, X⟩ := p
      dsimp only at s1 s2 s3
      obtain ⟨i1, i2, i3, i4, i5, i6, i7⟩ := handleNM_spec e f hp
      have hbuf : ∀ z ∈ f.r :: b, key z = key f.r := fun z hz => (List.mem_cons.1 hz).elim (fun e => e ▸ rfl) (s2 z)
      have hbuf0 : ∀ z ∈ f.r :: b, z.1 ≠ 0 := fun z hz => (List.mem_cons.1 hz).elim (fun e => e ▸ hr0) fun h => hfR.2 z (by rw [s1]; exact List.mem_append_left _ h)
      have hlen : (f.rsh :: f.rs).length = b.length + X.length := by rw [s1, List.length_append]
      simp only [List.length_cons] at hlen
      have hb0 : X.length ≤ f.rs.length := by
        match b, hlen, s1 with
        | [], _, s1 =>
          have := s3 f.rsh (by rw [List.nil_append] at s1; rw [← s1]; simp)
          omega
        | z :: b, hlen, _ => simp only [List.length_cons] at hlen; omega
      refine ok_go (.sp X (key f.r) i7 (i1 ▸ hfL.tail) (by
          rw [i1]; intro x hx; have := hfL.le x hx; omega) (hfR.sub (by rw [s1]; exact List.sublist_append_right _ _)) s3 (i4 ▸ hbuf) (i5 ▸ hbuf)
          (i2 ▸ hk) (by rw [i3]; omega) (by rw [i5]; simp) (by rw [i4]; simp)
          (i2 ▸ hl0) (i3 ▸ hfL.2 _ (by simp)) (i4 ▸ hbuf0) (i5 ▸ hbuf0)) (Or.inl ?_) ?_
      · rw [i1, i6, if_pos rfl]; omega
      · intro t
        rw [i1, i2, i3, i4, i5, i6, if_pos rfl, s1, J_cons_left f.l, ← List.cons_append, J_append_right, (lt_zero (L := X) (by
          intro x hx; have := s3 x hx; omega) t).1, Nat.add_zero]
    · rw [if_neg h4]
      refine ok_emit (.eqLD rfl (by show key f.lsh = key f.r; omega) hk (by show key f.r < key f.rsh; omega) hfL hfR hr0) (Or.inl (by dsimp only; omega)) rfl rfl ?_ (Nat.mul_ne_zero hl0 hr0) (col_append hk) hlow
      intro t
      dsimp only
      rw [J_cons_left f.l, J_cons_right [f.l], J_pair hk, (lt_zero (hfR.all_lt (by omega)) t).1, Nat.add_zero]
      rfl
  · rw [if_neg h3]
    have hzl : ∀ t, J (f.lsh :: f.ls) [f.r] t = 0 := fun t => (lt_zero (hfL.all_lt (by omega)) t).2
    by_cases h4 : key f.r = key f.rsh
    · rw [if_pos h4]
      refine ok_emit (.eqRD rfl (by show key f.rsh = key f.l; omega) hk.symm (by show key f.l < key f.lsh; omega) hfR hfL hl0) (Or.inl (by dsimp only; omega)) rfl rfl ?_ (Nat.mul_ne_zero hl0 hr0) (col_append hk) hlow
      intro t
      dsimp only
      rw [J_cons_right _ f.r, J_cons_left f.l _ [f.r], hzl, J_pair hk, Nat.add_zero]
      rfl
    · rw [if_neg h4]
      refine ok_emit (.swapped rfl hfL hfR) (Or.inl (by dsimp only; omega)) rfl rfl ?_ (Nat.mul_ne_zero hl0 hr0) (col_append hk) hlow
      intro t
      dsimp only
      rw [J_cons_left f.l, J_cons_right [f.l], (lt_zero (hfR.all_lt (by omega)) t).1, J_pair hk, J_cons_right (f.lsh :: f.ls), hzl, Nat.add_zero, Nat.zero_add]
      rfl

theorem compare_ok (e : Env) (ho : e.lo = false) (hr : e.ro = false) (a : MJ) (hl' : Fine (a.l :: a.ls)) (hr' : Fine (a.r :: a.rs)) :
    Ok (a.ls.length + a.rs.length + 2) 1 (J (a.l :: a.ls) (a.r :: a.rs)) (compare e a) := by
  unfold compare
  by_cases h1 : key a.l < key a.r
  · rw [if_pos h1, hr]
    refine ⟨_, _, _, .stepL rfl hl'.tail hr', Or.inr ⟨rfl, by omega⟩, ?_⟩
    intro t
    rw [J_cons_left]
    have : J [a.l] (a.r :: a.rs) t = 0 := J_zero (by
      intro x hx y hy
      rw [List.mem_singleton.1 hx]
      rcases List.mem_cons.1 hy with e1 | e1
      · rw [e1]; omega
      · have := hr'.le y e1; omega)
    rw [this, Nat.zero_add]
  rw [if_neg h1]
  by_cases h2 : key a.l > key a.r
  · rw [if_pos h2, ho]
    refine ⟨_, _, _, .stepR rfl hl' hr'.tail, Or.inr ⟨rfl, by omega⟩, ?_⟩
    intro t
    rw [J_cons_right]
    have : J (a.l :: a.ls) [a.r] t = 0 := J_zero (by
      intro y hy x hx
      rw [List.mem_singleton.1 hx]
      rcases List.mem_cons.1 hy with e1 | e1
      · rw [e1]; omega
      · have := hl'.le y e1; omega)
    rw [this, Nat.zero_add]
  rw [if_neg h2]
  have hk : key a.l = key a.r := by omega
  have hl0 : a.l.1 ≠ 0 := hl'.2 _ (by simp)
  have hr0 : a.r.1 ≠ 0 := hr'.2 _ (by simp)
  have hlow : ∀ t, J (a.l :: a.ls) (a.r :: a.rs) t ≠ 0 → key a.l ≤ col t 0 := fun t => low_left (cons_le (Nat.le_refl _) hl'.le)
  have hXr : ∀ x ∈ a.r :: a.rs, key a.r ≤ key x := fun x hx => (List.mem_cons.1 hx).elim (fun e => e ▸ Nat.le_refl _) (hr'.le x)
  obtain ⟨L, hL1, hL2, hL3⟩ := nextLeft_spec e { a with lsh := a.l }
  have hlenL : L.length ≤ a.ls.length := hL1.length_le
  rcases hL3 with ⟨rfl, eL⟩ | ⟨x, ls, rfl, eL⟩
  · rw [eL, matched, if_pos rfl]
    refine ok_emit (.emptyL rfl hr'.tail hl0) (Or.inl (by simp only [MJ.swapLeft]; omega)) rfl rfl ?_ (Nat.mul_ne_zero hl0 hr0) (col_append hk) hlow
    intro t
    rw [J_cons_left, hL2 _ hXr, J_nil_left, J_cons_right, J_pair hk]
    rfl
  · have hfL : Fine (x :: ls) := hl'.tail.sub hL1
    have hkL : ∀ y ∈ x :: ls, key a.l ≤ key y := fun y hy => hl'.le y (hL1.subset hy)
    rw [eL, matched, if_neg (by exact hfL.2 x (by simp))]
    simp only [MJ.swapLeft]
    obtain ⟨R, hR1, hR2, hR3⟩ := nextRight_spec e { a with l := a.l, lsh := x, ls := ls, nl := a.nl + 1, rsh := a.r }
    have hlenR : R.length ≤ a.rs.length := hR1.length_le
    have hXl : ∀ y ∈ a.l :: x :: ls, key a.l ≤ key y := fun y hy => (List.mem_cons.1 hy).elim (fun e => e ▸ Nat.le_refl _) (hkL y)
    have hB : ∀ t, J (a.l :: a.ls) (a.r :: a.rs) t = J (a.l :: x :: ls) (a.r :: R) t := by
      intro t
      rw [J_cons_left, hL2 _ hXr, ← J_cons_left, J_cons_right, hR2 _ hXl, ← J_cons_right]
    simp only [List.length_cons] at hlenL
    rcases hR3 with ⟨rfl, eR⟩ | ⟨y, rs, rfl, eR⟩
    · rw [eR, matchedBoth, if_pos rfl]
      refine ok_emit (.emptyRD rfl hfL hr0) (Or.inl (by dsimp only [MJ.swapRight]; omega)) rfl rfl ?_ (Nat.mul_ne_zero hl0 hr0) (col_append hk) hlow
      intro t
      rw [hB, J_cons_left]
      exact congrArg (· + _) (J_pair hk t)
    · have hfR : Fine (y :: rs) := hr'.tail.sub hR1
      rw [eR, matchedBoth, if_neg (by exact hfR.2 y (by simp))]
      simp only [List.length_cons] at hlenR
      refine (block_ok e _ (by exact hk) (by exact hfL) (hkL x (by simp)) (by exact hfR) (hr'.le y (hR1.subset (by simp))) (by exact hl0) (by exact hr0)).mono (by dsimp only [MJ.swapRight]; omega) hB

theorem step_ok (e : Env) (ho : e.lo = false) (hr : e.ro = false) (a : MJ) (p q : Nat) (B : Tup → Nat) (h : Inv a p q B) : Ok p q B (step e a) := by
  unfold step
  cases h with
  | has hs h1 h2 => rw [hs]; exact compare_ok e ho hr a h1 h2
  | swapped hs h1 h2 => rw [hs]; exact (compare_ok e ho hr a.swapLeft.swapRight h1 h2).mono (Or.inr ⟨rfl, by omega⟩) fun _ => rfl
  | stepL hs h1 h2 =>
    rw [hs]
    obtain ⟨L, hL1, hL2, hL3⟩ := nextLeft_spec e a
    have hX : ∀ x ∈ a.r :: a.rs, key a.r ≤ key x := fun x hx => (List.mem_cons.1 hx).elim (fun e => e ▸ Nat.le_refl _) (h2.le x)
    have hlen := hL1.length_le
    dsimp only
    rcases hL3 with ⟨rfl, eL⟩ | ⟨x, ls, rfl, eL⟩
    · rw [eL, stepLeftWith, if_pos rfl, ho]
      intro t
      rw [hL2 _ hX]; rfl
    · have hf := h1.sub hL1
      rw [eL, stepLeftWith, if_neg (by exact hf.2 x (by simp))]
      simp only [List.length_cons] at hlen
      exact (compare_ok e ho hr { a with l := x, ls := ls, nl := a.nl + 1 } hf h2).mono (Or.inl (by dsimp only; omega)) fun t => hL2 _ hX t
  | stepR hs h1 h2 =>
    rw [hs]
    obtain ⟨L, hL1, hL2, hL3⟩ := nextRight_spec e a
    have hX : ∀ x ∈ a.l :: a.ls, key a.l ≤ key x := fun x hx => (List.mem_cons.1 hx).elim (fun e => e ▸ Nat.le_refl _) (h1.le x)
    have hlen := hL1.length_le
    dsimp only
    rcases hL3 with ⟨rfl, eL⟩ | ⟨x, ls, rfl, eL⟩
    · rw [eL, stepRightWith, if_pos rfl, hr]
      intro t
      rw [hL2 _ hX, J_nil_right]
    · have hf := h2.sub hL1
      rw [eL, stepRightWith, if_neg (by exact hf.2 x (by simp))]
      simp only [List.length_cons] at hlen
      exact (compare_ok e ho hr { a with r := x, rs := ls, nr := a.nr + 1 } h1 hf).mono (Or.inl (by dsimp only; omega)) fun t => hL2 _ hX t
  | emptyL hs h1 h0 =>
    rw [hs]
    obtain ⟨L, hL1, hL2, hL3⟩ := nextRight_spec e { a with st := .loopEmptyLeft }
    have hX : ∀ x ∈ [a.l], key a.l ≤ key x := fun x hx => by rw [List.mem_singleton.1 hx]; exact Nat.le_refl _
    have hlen : L.length ≤ a.rs.length := hL1.length_le
    dsimp only
    rw [emptyLeft]
    rcases hL3 with ⟨rfl, eL⟩ | ⟨x, rs, rfl, eL⟩
    · rw [eL, emptyLeftWith, if_pos rfl]
      intro t
      rw [hL2 _ hX, J_nil_right]
    · have hf : Fine (x :: rs) := h1.sub hL1
      simp only [List.length_cons] at hlen
      rw [eL, emptyLeftWith, if_neg (by exact hf.2 x (by simp))]
      by_cases hk : key a.l = key x
      · rw [if_pos (by exact hk)]
        refine ok_emit (.emptyL rfl (by exact hf.tail) (by exact h0)) (Or.inl (by dsimp only; omega)) rfl rfl ?_ (Nat.mul_ne_zero h0 (hf.2 x (by simp)))
          (col_append hk) (fun t => low_left hX)
        intro t
        rw [hL2 _ hX, J_cons_right]
        exact congrArg (· + _) (J_pair hk t)
      · rw [if_neg (by exact hk), ho, if_neg (by simp)]
        by_cases hlt : key a.l < key x
        · rw [if_pos (by exact hlt)]
          intro t
          rw [hL2 _ hX]
          exact (lt_zero (hf.all_lt hlt) t).1
        · rw [if_neg (by exact hlt)]
          refine ok_go (.emptyL rfl (by exact hf.tail) (by exact h0)) (Or.inl (by dsimp only; omega)) ?_
          intro t
          rw [hL2 _ hX, J_cons_right, J_single, pr, if_neg (fun y => hk y.1), Nat.zero_add]
  | emptyRD hs h1 h0 =>
    rw [hs]
    exact emptyRight_ok a.swapLeft h1.tail h1.le (Nat.lt_succ_self _) (h1.2 a.lsh (by simp)) h0
  | emptyR hs h1 h0 =>
    rw [hs]
    obtain ⟨L, hL1, hL2, hL3⟩ := nextLeft_spec e a
    have hX : ∀ x ∈ [a.r], key a.r ≤ key x := fun x hx => by rw [List.mem_singleton.1 hx]; exact Nat.le_refl _
    have hlen := hL1.length_le
    dsimp only
    rcases hL3 with ⟨rfl, eL⟩ | ⟨x, ls, rfl, eL⟩
    · rw [eL, emptyRightWith, if_pos rfl]
      intro t
      rw [hL2 _ hX]; rfl
    · have hf := h1.sub hL1
      simp only [List.length_cons] at hlen
      rw [eL, emptyRightWith, if_neg (by exact hf.2 x (by simp))]
      exact (emptyRight_ok (p := a.ls.length) (q := 0) { a with l := x, ls := ls, nl := a.nl + 1 } hf.tail hf.le (by dsimp only; omega) (hf.2 x (by simp)) h0).mono (Or.inr ⟨rfl, Nat.le_refl _⟩) fun t => hL2 _ hX t
  | eqLD hs h1 h2 h3 h4 h5 h0 =>
    rw [hs]
    dsimp only
    rw [equalLeft, if_neg (by show ¬ key a.lsh ≠ key a.l; omega)]
    refine ok_emit (.eqL rfl (by exact h2) (by exact h3) (by exact h4.tail) (by
      intro x hx; have : key a.lsh ≤ key x := h4.le x hx; show key a.r ≤ _; omega) (by exact h5) (by exact h0)) (Or.inl (by dsimp only [MJ.swapLeft]; omega)) rfl rfl ?_ (Nat.mul_ne_zero (h4.2 a.lsh (by simp)) h0) (col_append h1)
        (fun t => low_left (cons_le (Nat.le_refl _) h4.le))
    intro t
    rw [J_cons_left, J_cons_right [a.lsh], (lt_zero (h5.all_lt (by omega)) t).1, Nat.add_zero]
    exact congrArg (· + _) (J_pair h1 t)
  | eqL hs h1 h2 h3 h4 h5 h0 =>
    rw [hs]
    obtain ⟨L, hL1, hL2, hL3⟩ := nextLeft_spec e a
    have hX : ∀ x ∈ a.r :: a.rsh :: a.rs, key a.r ≤ key x := by
      intro x hx
      rcases List.mem_cons.1 hx with e1 | e1
      · rw [e1]; exact Nat.le_refl _
      · exact Nat.le_of_lt (h5.all_lt h2 x e1)
    have hlen := hL1.length_le
    dsimp only
    rcases hL3 with ⟨rfl, eL⟩ | ⟨x, ls, rfl, eL⟩
    · rw [eL, equalLeftWith, if_pos rfl, ho]
      intro t
      rw [hL2 _ hX]; rfl
    · have hf := h3.sub hL1
      have hx := h4 x (hL1.subset (by simp))
      simp only [List.length_cons] at hlen
      rw [eL, equalLeftWith, if_neg (by exact hf.2 x (by simp)), equalLeft]
      by_cases hk : key x ≠ key a.lsh
      · rw [if_pos (by exact hk)]
        refine ok_go (.has rfl (by exact hf) (by exact h5)) (Or.inl (by dsimp only [MJ.swapRight]; omega)) ?_
        intro t
        rw [hL2 _ hX, J_cons_right, (lt_zero (hf.all_lt (by omega)) t).2, Nat.zero_add]
        rfl
      · rw [if_neg (by exact hk)]
        refine ok_emit (.eqL rfl (by exact h1) (by exact h2) (by exact hf.tail) (by
          intro y hy; exact h4 y (hL1.subset (List.mem_cons_of_mem _ hy))) (by exact h5) (by exact h0)) (Or.inl (by dsimp only; omega)) rfl rfl ?_
          (Nat.mul_ne_zero (hf.2 x (by simp)) h0) ((col_append (by show key x = key a.r; omega)).trans (show key x = key a.r by omega)) (fun t => low_right hX)
        intro t
        rw [hL2 _ hX, J_cons_left, J_cons_right [x], (lt_zero (h5.all_lt (by omega)) t).1, Nat.add_zero]
        exact congrArg (· + _) (J_pair (by omega) t)
  | eqRD hs h1 h2 h3 h4 h5 h0 =>
    rw [hs]
    dsimp only
    rw [equalRight, if_neg (by show ¬ key a.rsh ≠ key a.r; omega)]
    refine ok_emit (.eqR rfl (by exact h2) (by exact h3) (by exact h4.tail) (by
      intro x hx; have : key a.rsh ≤ key x := h4.le x hx; show key a.l ≤ _; omega) (by exact h5) (by exact h0)) (Or.inl (by dsimp only [MJ.swapRight]; omega)) rfl rfl ?_ (Nat.mul_ne_zero h0 (h4.2 a.rsh (by simp)))
        ((col_append h1.symm).trans h1.symm) (fun t => low_right (cons_le (Nat.le_refl _) h4.le))
    intro t
    rw [J_cons_right, J_cons_left _ _ [a.rsh], (lt_zero (h5.all_lt (by omega)) t).2, Nat.add_zero]
    exact congrArg (· + _) (J_pair h1.symm t)
  | eqR hs h1 h2 h3 h4 h5 h0 =>
    rw [hs]
    obtain ⟨L, hL1, hL2, hL3⟩ := nextRight_spec e a
    have hX : ∀ x ∈ a.l :: a.lsh :: a.ls, key a.l ≤ key x := by
      intro x hx
      rcases List.mem_cons.1 hx with e1 | e1
      · rw [e1]; exact Nat.le_refl _
      · exact Nat.le_of_lt (h5.all_lt h2 x e1)
    have hlen := hL1.length_le
    dsimp only
    rcases hL3 with ⟨rfl, eL⟩ | ⟨x, rs, rfl, eL⟩
    · rw [eL, equalRightWith, if_pos rfl, hr]
      intro t
      rw [hL2 _ hX, J_nil_right]
    · have hf := h3.sub hL1
      have hx := h4 x (hL1.subset (by simp))
      simp only [List.length_cons] at hlen
      rw [eL, equalRightWith, if_neg (by exact hf.2 x (by simp)), equalRight]
      by_cases hk : key x ≠ key a.rsh
      · rw [if_pos (by exact hk)]
        refine ok_go (.has rfl (by exact h5) (by exact hf)) (Or.inl (by dsimp only [MJ.swapLeft]; omega)) ?_
        intro t
        rw [hL2 _ hX, J_cons_left, (lt_zero (hf.all_lt (by omega)) t).1, Nat.zero_add]
        rfl
      · rw [if_neg (by exact hk)]
        refine ok_emit (.eqR rfl (by exact h1) (by exact h2) (by exact hf.tail) (by
          intro y hy; exact h4 y (hL1.subset (List.mem_cons_of_mem _ hy))) (by exact h5) (by exact h0)) (Or.inl (by dsimp only; omega)) rfl rfl ?_
          (Nat.mul_ne_zero h0 (hf.2 x (by simp))) (col_append (by show key a.l = key x; omega)) (fun t => low_left hX)
        intro t
        rw [hL2 _ hX, J_cons_right, J_cons_left _ _ [x], (lt_zero (h5.all_lt (by omega)) t).2, Nat.add_zero]
        exact congrArg (· + _) (J_pair (by omega) t)
  | sp X k hs h1 h2 h3 h4 h5 h6 h7 h8 h9 h10 hl0 hs0 hb0 hi0 =>
    have key1 : Ok (a.ls.length + (if a.inCopy then 1 else 0) + X.length + 1) a.bi.length
        (fun t => J [a.l] a.bi t + J (if a.inCopy then a.lsh :: a.ls else a.ls) (a.buf ++ X) t)
        (fromBuffer e a) := by
      unfold fromBuffer
      match hbi : a.bi with
      | x :: bi =>
        rw [hbi] at h6 hi0
        refine ok_emit (.sp X k (by exact hs) (by exact h1) (by exact h2) h3 h4 (by exact h5) (by
          intro y hy; exact h6 y (List.mem_cons_of_mem _ hy)) (by exact h7) (by exact h8) (by intro _; exact h6 x (by simp)) (by exact h10)
          (by exact hl0) (by exact hs0) (by exact hb0) (fun y hy => hi0 y (List.mem_cons_of_mem _ hy))) (Or.inr ⟨rfl, by simp⟩) rfl rfl ?_
          (Nat.mul_ne_zero hl0 (hi0 x (by simp))) ((col_append (by rw [h7, h6 x (by simp)])).trans h7) ?_
        rotate_left
        · intro t ht
          by_cases hz : J [a.l] (x :: bi) t = 0
          · rw [hz, Nat.zero_add] at ht
            refine low_right (fun r hr => ?_) ht
            rcases List.mem_append.1 hr with e1 | e1
            · exact Nat.le_of_eq (h5 r e1).symm
            · exact Nat.le_of_lt (h4 r e1)
          · exact low_right (fun r hr => Nat.le_of_eq (h6 r hr).symm) hz
        intro t
        dsimp only
        have hx := h6 x (by simp)
        rw [J_cons_right [a.l], J_pair (by omega), Nat.add_assoc]
        rfl
      | [] =>
        have hr9 := h9 hbi
        dsimp only
        by_cases hc : a.inCopy = true
        · simp only [hc, if_true]
          rw [spooled, if_pos (by show key a.lsh = key a.l; omega)]
          refine ok_go (.sp X k (by exact hs) (by exact h1) (by exact h2) h3 h4 (by exact h5) (by exact h5) (by exact h8) (by exact h7)
            (by intro _; exact hr9) (by exact h10) (by exact hs0) (by exact hl0) (by exact hb0) (by exact hb0)) (Or.inl (by simp [MJ.swapLeft])) ?_
          intro t
          simp only [MJ.swapLeft]
          rw [J_nil_right, J_cons_left a.lsh, J_append_right [a.lsh], (lt_zero (L := X) (by
            intro x hx; have := h4 x hx; omega) t).1]
          simp
        · have hc' : a.inCopy = false := by simpa using hc
          simp only [hc', if_false, Bool.false_eq_true]
          obtain ⟨L, hL1, hL2, hL3⟩ := nextLeft_spec e a
          have hX : ∀ x ∈ a.buf ++ X, key a.r ≤ key x := by
            intro x hx
            rcases List.mem_append.1 hx with e1 | e1
            · have := h5 x e1; omega
            · have := h4 x e1; omega
          have hlen := hL1.length_le
          rcases hL3 with ⟨rfl, eL⟩ | ⟨x, ls, rfl, eL⟩
          · rw [eL, spooledWith, if_pos rfl, ho]
            intro t
            show J [a.l] [] t + J a.ls (a.buf ++ X) t = 0
            rw [J_nil_right, hL2 _ hX]; rfl
          · have hf := h1.sub hL1
            have hx := h2 x (hL1.subset (by simp))
            simp only [List.length_cons] at hlen
            rw [eL, spooledWith, if_neg (by exact hf.2 x (by simp)), spooled]
            by_cases hk : key x = key a.lsh
            · rw [if_pos (by exact hk)]
              refine ok_go (.sp X k (by exact hs) (by exact hf.tail) (by
                  intro y hy; exact h2 y (hL1.subset (List.mem_cons_of_mem _ hy))) h3 h4 (by exact h5) (by exact h5) (by show key x = k; omega) (by exact h8)
                (by intro _; exact hr9) (by exact h10) (by exact hf.2 x (by simp)) (by exact hs0) (by exact hb0) (by exact hb0)) (Or.inl (by simp only [hc']; simp; omega)) ?_
              intro t
              simp only [hc']
              rw [J_nil_right, hL2 _ hX, J_cons_left x, J_append_right [x], (lt_zero (L := X) (by
                intro y hy; have := h4 y hy; omega) t).1]
              simp
            · rw [if_neg (by exact hk)]
              have hz : ∀ t, J (x :: ls) a.buf t = 0 := fun t => J_zero (by
                intro u hu v hv
                have e1 := h5 v hv
                have e2 := hf.all_lt (k := k) (by omega) u hu
                omega)
              rcases hs with ⟨hs, hX0⟩ | ⟨hs, hX0⟩
              · rw [if_pos (by exact hs), hr]
                intro t
                show J [a.l] [] t + J a.ls (a.buf ++ X) t = 0
                rw [J_nil_right, hL2 _ hX, J_append_right, hz, hX0, J_nil_right]
              · rw [if_neg (by show ¬ a.st = _; rw [hs]; simp)]
                rw [hX0] at h3
                refine ok_go (.has rfl (by exact hf) (by exact h3)) (Or.inl ?_) ?_
                · rw [hX0]; simp only [MJ.swapRight, List.length_cons]; omega
                · intro t
                  rw [J_nil_right, hL2 _ hX, J_append_right, hz, hX0, Nat.zero_add, Nat.zero_add]
                  rfl
    rcases hs with ⟨hs, hX⟩ | ⟨hs, hX⟩
    · rw [hs]; exact key1
    · rw [hs]; exact key1
where
  emptyRight_ok {p q : Nat} (b : MJ) (h1 : Fine b.ls) (hle : ∀ x ∈ b.ls, key b.l ≤ key x) (hp : b.ls.length < p) (hl0 : b.l.1 ≠ 0)
      (hr0 : b.r.1 ≠ 0) : Ok p q (J (b.l :: b.ls) [b.r]) (emptyRight e b) := by
    unfold emptyRight
    dsimp only
    by_cases hk : key b.l = key b.r
    · rw [if_pos hk]
      refine ok_emit (.emptyR rfl h1 hr0) (Or.inl hp) rfl rfl ?_ (Nat.mul_ne_zero hl0 hr0) (col_append hk) (fun t => low_left (cons_le (Nat.le_refl _) hle))
      intro t
      rw [J_cons_left]
      exact congrArg (· + _) (J_pair hk t)
    · rw [if_neg hk, hr, if_neg (by simp)]
      by_cases hlt : key b.l > key b.r
      · rw [if_pos hlt]
        intro t
        exact (lt_zero (L := b.l :: b.ls) (by
          intro y hy
          rcases List.mem_cons.1 hy with e1 | e1
          · rw [e1]; exact hlt
          · have := hle y e1; omega) t).2
      · rw [if_neg hlt]
        refine ok_go (.emptyR rfl h1 hr0) (Or.inl hp) ?_
        intro t
        rw [J_cons_left, J_single, pr, if_neg (fun y => hk y.1), Nat.zero_add]

/-- Rows with numbers that are not 0, in the order of the first value. -/
def Good (out : List Row) : Prop := (∀ x ∈ out, x.1 ≠ 0) ∧ out.Pairwise fun a b => col a.2 0 ≤ col b.2 0

theorem inner_runs_good (e : Env) (ho : e.lo = false) (hr : e.ro = false) : ∀ (p q : Nat) (a : MJ) (B : Tup → Nat), Inv a p q B →
    ∃ out, Runs (step e) a out ∧ (∀ t, bag out t = B t) ∧ Good out := by
  intro p
  induction p using Nat.strongRecOn with
  | ind p ihp =>
    intro q
    induction q using Nat.strongRecOn with
    | ind q ihq =>
      intro a B h
      have hok := step_ok e ho hr a p q B h
      match hs : step e a with
      | .stop =>
        rw [hs] at hok
        exact ⟨[], .stop hs, fun t => (hok t).symm, by simp, by simp⟩
      | .go a' =>
        rw [hs] at hok
        obtain ⟨p', q', B', h1, h2, h3⟩ := hok
        have : ∃ out, Runs (step e) a' out ∧ (∀ t, bag out t = B' t) ∧ Good out := by
          rcases h2 with h2 | ⟨h2, h2'⟩
          · exact ihp p' h2 q' a' B' h1
          · subst h2; exact ihq q' h2' a' B' h1
        obtain ⟨out, r1, r2, r3⟩ := this
        exact ⟨out, .go hs r1, fun t => (r2 t).trans (h3 t).symm, r3⟩
      | .emit x a' =>
        rw [hs] at hok
        obtain ⟨p', q', B', h1, h2, h3, h4, h5⟩ := hok
        have : ∃ out, Runs (step e) a' out ∧ (∀ t, bag out t = B' t) ∧ Good out := by
          rcases h2 with h2 | ⟨h2, h2'⟩
          · exact ihp p' h2 q' a' B' h1
          · subst h2; exact ihq q' h2' a' B' h1
        obtain ⟨out, r1, r2, r3, r4⟩ := this
        refine ⟨x :: out, .emit hs r1, fun t => by rw [bag_cons, r2, h3], ?_, List.pairwise_cons.2 ⟨fun y hy => h5 _ ?_, r4⟩⟩
        · intro y hy
          rcases List.mem_cons.1 hy with e1 | e1
          · rw [e1]; exact h4
          · exact r3 y e1
        · have : 0 < bag out y.2 := bag_pos.2 ⟨y, hy, rfl, Nat.pos_of_ne_zero (r3 y hy)⟩
          rw [h3, ← r2]; omega

theorem inner_runs (e : Env) (ho : e.lo = false) (hr : e.ro = false) (p q : Nat) (a : MJ) (B : Tup → Nat) (h : Inv a p q B) :
    ∃ out, Runs (step e) a out ∧ ∀ t, bag out t = B t :=
  let ⟨out, h1, h2, _⟩ := inner_runs_good e ho hr p q a B h
  ⟨out, h1, h2⟩

end Trident.Sparql.Merge
