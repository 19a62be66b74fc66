import Verif.Iter.CompositeScan
/-! Helper proofs for the merge of scans (no property statements here). -/
namespace Trident

theorem Row3.lt_trans {a b c : Row3} (h : Row3.lt a b) (h' : Row3.lt b c) : Row3.lt a c := by
  simp only [Row3.lt, Pair.lt] at *; omega

theorem Row3.lt_irrefl (a : Row3) : ¬ Row3.lt a a := by simp only [Row3.lt, Pair.lt]; omega

theorem Row3.eq_of_not_lt {a b : Row3} (h : ¬ Row3.lt a b) (h' : ¬ Row3.lt b a) : a = b := by
  obtain ⟨a1, a2, a3⟩ := a
  obtain ⟨b1, b2, b3⟩ := b
  simp only [Row3.lt, Pair.lt] at h h'
  have e1 : a1 = b1 := by omega
  have e2 : a2 = b2 := by omega
  have e3 : a3 = b3 := by omega
  rw [e1, e2, e3]

/-- Not after: the order of lists that may repeat rows. -/
def Row3.nl (a b : Row3) : Prop := ¬ Row3.lt b a

theorem Row3.lt_nl {a b : Row3} (h : Row3.lt a b) : Row3.nl a b := fun h' => Row3.lt_irrefl _ (Row3.lt_trans h h')

theorem Row3.lt_of_nl {a b c : Row3} (h : Row3.nl a b) (h' : Row3.lt b c) : Row3.lt a c := by
  simp only [Row3.nl, Row3.lt, Pair.lt] at *; omega

namespace CScan
variable {σ : Type} {C : Itr σ Row3} {sort : List σ → List σ}

/-- The children stand at their first row, and will return the others. -/
def Live (C : Itr σ Row3) (ys : List (σ × List Row3)) : Prop :=
  ∀ y ∈ ys, Yields C y.1 y.2 ∧ (C.val y.1 :: y.2).Pairwise Row3.nl

/-- All rows to come. -/
def toCome (C : Itr σ Row3) (ys : List (σ × List Row3)) : List Row3 := ys.flatMap fun y => C.val y.1 :: y.2

/-- The children can be paired with what they return after sorting. -/
theorem exists_sorted (hs : SortSpec C sort) (ys : List (σ × List Row3)) :
    ∃ zs : List (σ × List Row3), zs.map (·.1) = sort (ys.map (·.1)) ∧ zs.Perm ys := by
  have hp := hs.perm (ys.map (·.1))
  generalize sort (ys.map (·.1)) = l at hp
  have : ∀ {l k : List σ}, l.Perm k → ∀ ys : List (σ × List Row3), ys.map (·.1) = k → ∃ zs : List (σ × List Row3), zs.map (·.1) = l ∧ zs.Perm ys := by
    intro l k h
    induction h with
    | nil => intro ys e; exact ⟨[], rfl, by rw [List.map_eq_nil_iff.1 e]⟩
    | cons x _ ih =>
      intro ys e
      cases ys with
      | nil => simp at e
      | cons y ys =>
        simp only [List.map_cons, List.cons.injEq] at e
        obtain ⟨zs, z1, z2⟩ := ih ys e.2
        exact ⟨y :: zs, by simp [z1, e.1], z2.cons y⟩
    | swap x y l =>
      intro ys e
      match ys, e with
      | a :: b :: ys, e =>
        simp only [List.map_cons, List.cons.injEq] at e
        exact ⟨b :: a :: ys, by simp [e.1, e.2.1, e.2.2], List.Perm.swap _ _ _⟩
    | trans _ _ ih1 ih2 =>
      intro ys e
      obtain ⟨zs, z1, z2⟩ := ih2 ys e
      obtain ⟨ws, w1, w2⟩ := ih1 zs z1
      exact ⟨ws, w1, w2.trans z2⟩
  exact this hp ys rfl

theorem toCome_perm {zs ys : List (σ × List Row3)} (h : zs.Perm ys) : (toCome C zs).Perm (toCome C ys) := h.flatMap_right _

theorem Live.perm {zs ys : List (σ × List Row3)} (h : zs.Perm ys) (hl : Live C ys) : Live C zs := fun y hy => hl y (h.mem_iff.1 hy)

/-- The merge returns the rows to come. -/
theorem yields (hs : SortSpec C sort) (out : List Row3) (ys : List (σ × List Row3)) (hl : Live C ys) (ho : out.Pairwise Row3.nl)
    (hp : out.Perm (toCome C ys)) (s : St σ) (hh : s.hnc = false) (hlive : s.live = ys.map (·.1)) :
    Yields (itr C sort) s out := by
  induction out generalizing ys s with
  | nil =>
    have e : ys = [] := by
      cases ys with
      | nil => rfl
      | cons y ys =>
        have := hp.length_eq
        simp [toCome] at this
    subst e
    refine .done ?_
    show (hasNext sort s).1 = false
    unfold hasNext
    rw [if_neg (by simp [hh]), hlive]
    rfl
  | cons r out ih =>
    -- sort the children
    obtain ⟨zs, z1, z2, z3⟩ : ∃ zs : List (σ × List Row3), (zs.map (·.1)) = (if s.live.length > 1 then sort s.live else s.live) ∧ zs.Perm ys ∧
        (zs.map (·.1)).Pairwise fun a b => ¬ Row3.lt (C.val b) (C.val a) := by
      by_cases hlen : s.live.length > 1
      · obtain ⟨zs, z1, z2⟩ := exists_sorted hs ys
        rw [if_pos hlen, hlive]
        exact ⟨zs, z1, z2, by rw [z1]; exact hs.sorted _⟩
      · rw [if_neg hlen]
        refine ⟨ys, hlive.symm, .refl _, ?_⟩
        rw [← hlive]
        match hq : s.live, hlen with
        | [], _ => exact .nil
        | [x], _ => simp
        | x :: y :: l, h => simp at h
    have hlz : Live C zs := hl.perm z2
    have hpz : (r :: out).Perm (toCome C zs) := hp.trans (toCome_perm z2.symm)
    match zs, z1, z2, z3, hlz, hpz with
    | [], _, _, _, _, hpz => simp [toCome] at hpz
    | z :: zs, z1, z2, z3, hlz, hpz =>
      obtain ⟨hy, hys⟩ := hlz z (by simp)
      rw [List.map_cons, List.pairwise_cons] at z3
      rw [List.pairwise_cons] at ho
      -- the first child has the smallest row
      have hmin : ∀ x ∈ toCome C (z :: zs), ¬ Row3.lt x (C.val z.1) := by
        intro x hx
        obtain ⟨y, hy', hx⟩ := List.mem_flatMap.1 hx
        have h1 : ¬ Row3.lt (C.val y.1) (C.val z.1) := by
          rcases List.mem_cons.1 hy' with rfl | hy'
          · exact Row3.lt_irrefl _
          · exact z3.1 _ (List.mem_map.2 ⟨y, hy', rfl⟩)
        rcases List.mem_cons.1 hx with rfl | hx
        · exact h1
        · intro h2
          exact h1 (Row3.lt_of_nl ((List.pairwise_cons.1 (hlz y hy').2).1 x hx) h2)
      have hr : r = C.val z.1 := by
        have m1 : r ∈ toCome C (z :: zs) := hpz.mem_iff.1 (by simp)
        have m2 : C.val z.1 ∈ r :: out := hpz.mem_iff.2 (by simp [toCome])
        refine Row3.eq_of_not_lt (hmin r m1) ?_
        rcases List.mem_cons.1 m2 with e | hm
        · rw [e]; exact Row3.lt_irrefl _
        · exact ho.1 _ hm
      have hcons : out.Perm (z.2 ++ toCome C zs) := by
        have : (r :: out).Perm (C.val z.1 :: (z.2 ++ toCome C zs)) := by simpa [toCome] using hpz
        rw [hr] at this
        exact this.cons_inv
      have e1 : hasNext sort s = (true, { s with live := z.1 :: zs.map (·.1), hn := true, hnc := true }) := by
        unfold hasNext
        rw [if_neg (by simp [hh])]
        simp only [← z1]
        rfl
      have e2 : (itr C sort).hasNext s = (true, { s with live := z.1 :: zs.map (·.1), hn := true, hnc := true }) := e1
      have hv : (itr C sort).val ((itr C sort).next ((itr C sort).hasNext s).2) = r := by rw [e2, hr]; rfl
      rw [← hv]
      refine .step (by rw [e2]) ?_
      rw [e2]
      show Yields (itr C sort) (CScan.next C { s with live := z.1 :: zs.map (·.1), hn := true, hnc := true }) out
      unfold CScan.next
      simp only
      cases hn : (C.hasNext z.1).1 with
      | false =>
        have : z.2 = [] := by
          generalize z.2 = l at hy
          cases hy with
          | done _ => rfl
          | step h _ => simp [hn] at h
        exact ih zs (fun y hy => hlz y (by simp [hy])) ho.2 (by rw [this] at hcons; exact hcons) _ rfl (by simp)
      | true =>
        obtain ⟨rest, hz2, hrest⟩ : ∃ rest, z.2 = C.val (C.next (C.hasNext z.1).2) :: rest ∧ Yields C (C.next (C.hasNext z.1).2) rest := by
          generalize z.2 = l at hy
          cases hy with
          | done h => simp [hn] at h
          | step _ h => exact ⟨_, rfl, h⟩
        refine ih ((C.next (C.hasNext z.1).2, rest) :: zs) ?_ ho.2 ?_ _ rfl (by simp)
        · intro y hy'
          rcases List.mem_cons.1 hy' with rfl | hy'
          · refine ⟨hrest, ?_⟩
            have := (List.pairwise_cons.1 hys).2
            rw [hz2] at this
            exact this
          · exact hlz y (by simp [hy'])
        · rw [hz2] at hcons
          simpa [toCome] using hcons

/-- `addChild`: every child that is not empty is at its first row. -/
theorem addAll_live (xs : List (σ × List Row3)) (h : ∀ x ∈ xs, Yields C x.1 x.2 ∧ x.2.Pairwise Row3.nl) :
    ∃ ys, ys.map (·.1) = addAll C (xs.map (·.1)) ∧ Live C ys ∧ toCome C ys = xs.flatMap (·.2) := by
  induction xs with
  | nil => exact ⟨[], rfl, by intro y hy; simp at hy, rfl⟩
  | cons x xs ih =>
    obtain ⟨ys, y1, y2, y3⟩ := ih fun x hx => h x (by simp [hx])
    obtain ⟨hy, hs⟩ := h x (by simp)
    cases hn : (C.hasNext x.1).1 with
    | false =>
      have : x.2 = [] := by
        generalize x.2 = l at hy
        cases hy with
        | done _ => rfl
        | step h _ => simp [hn] at h
      exact ⟨ys, by simp [addAll, hn] at y1 ⊢; exact y1, y2, by simp [this, y3]⟩
    | true =>
      obtain ⟨rest, hx2, hrest⟩ : ∃ rest, x.2 = C.val (C.next (C.hasNext x.1).2) :: rest ∧ Yields C (C.next (C.hasNext x.1).2) rest := by
        generalize x.2 = l at hy
        cases hy with
        | done h => simp [hn] at h
        | step _ h => exact ⟨_, rfl, h⟩
      refine ⟨(C.next (C.hasNext x.1).2, rest) :: ys, ?_, ?_, ?_⟩
      · simp only [addAll, List.map_cons] at y1 ⊢
        rw [List.filterMap_cons]
        simp only [hn, if_pos]
        rw [y1]
      · intro y hy'
        rcases List.mem_cons.1 hy' with rfl | hy'
        · exact ⟨hrest, by rw [hx2] at hs; exact hs⟩
        · exact y2 y hy'
      · simp only [toCome, List.flatMap_cons] at y3 ⊢
        rw [y3, hx2]

end CScan

/-! ## Families of scans -/

theorem fam3_yields {cs : List Obj3} {i : Fin cs.length} {s l} (h : Yields (cs.get i).I s l) : Yields (fam3Itr cs) ⟨i, s⟩ l := by
  induction h with
  | done h => exact .done h
  | step h1 _ ih => exact .step (I := fam3Itr cs) (s := ⟨i, _⟩) h1 ih

theorem composite3_yields {sort : Sorter3} (hsort : ∀ cs, CScan.SortSpec (fam3Itr cs) (sort cs)) (xs : List (Obj3 × List Row3))
    (h : ∀ x ∈ xs, x.1.Returns x.2 ∧ x.2.Pairwise Row3.nl) {out} (h1 : out.Pairwise Row3.nl) (h2 : out.Perm (xs.flatMap (·.2))) :
    (Obj3.composite sort (xs.map (·.1))).Returns out := by
  let cs := xs.map (·.1)
  have hlen : cs.length = xs.length := by simp [cs]
  let fl : List (Fam3 cs × List Row3) := (List.finRange cs.length).map fun i => (⟨i, (cs.get i).s⟩, (xs.get (i.cast hlen)).2)
  have f1 : fl.map (·.1) = fam3All cs := by
    simp only [fl, fam3All, List.map_map]; rfl
  have f2 : fl.flatMap (·.2) = xs.flatMap (·.2) := by
    have e : xs = (List.finRange cs.length).map fun i => xs.get (i.cast hlen) := by
      apply List.ext_getElem
      · simp [cs]
      · intro i h1 h2; simp
    conv => rhs; rw [e]
    simp only [fl, List.flatMap_map]
  have f3 : ∀ y ∈ fl, Yields (fam3Itr cs) y.1 y.2 ∧ y.2.Pairwise Row3.nl := by
    intro y hy
    obtain ⟨i, -, rfl⟩ := List.mem_map.1 hy
    have hx := h _ (List.get_mem xs (i.cast hlen))
    refine ⟨fam3_yields ?_, hx.2⟩
    have e : cs.get i = (xs.get (i.cast hlen)).1 := by simp [cs]
    have hr : (cs.get i).Returns (xs.get (i.cast hlen)).2 := by rw [e]; exact hx.1
    exact hr
  obtain ⟨ys, y1, y2, y3⟩ := CScan.addAll_live fl f3
  refine CScan.yields (hsort cs) out ys.reverse (y2.perm (List.reverse_perm _)) h1 ?_ _ rfl ?_
  · refine (h2.trans ?_).trans (CScan.toCome_perm (List.reverse_perm _).symm)
    rw [y3, f2]
  · show (CScan.addAll (fam3Itr cs) (fam3All cs)).reverse = _
    rw [← f1, ← y1, List.map_reverse]

end Trident
