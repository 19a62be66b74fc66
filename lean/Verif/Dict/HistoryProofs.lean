import Verif.Dict.MgmtProofs
namespace Trident.Dict
open BTree SPool

/-- All pools on disk have sizes that the code supports. -/
def FitsDisk (P : Par) (D : Disk) : Prop := ∀ d ∈ D.base :: D.upds.map (·.1), FitsPool P d.sb

theorem fits_of {P : Par} {D : Disk} {b : List (Text × Nat)} {us : List (List (Text × Nat) × Nat)} (h : FitsDisk P D) (hb : D.base = Dic.of P b)
    (hu : D.upds = us.map fun u => (Dic.of P u.1, u.2)) : ∀ es ∈ b :: us.map (·.1), FitsPool P (es.map (·.1)) := by
  intro es hes
  have : (Dic.of P es).sb = es.map (·.1) := rfl
  rw [← this]
  refine h _ ?_
  rw [hb, hu, List.map_map]
  rcases List.mem_cons.1 hes with rfl | hes
  · simp
  · obtain ⟨u, hu, rfl⟩ := List.mem_map.1 hes
    exact List.mem_cons_of_mem _ (List.mem_map.2 ⟨u, hu, rfl⟩)

/-! ## Loading -/

theorem appendFrom_of {P : Par} : ∀ (ts : List Text) (key : Nat) (es : List (Text × Nat)), appendFrom P key ts (Dic.of P es) = Dic.of P (es ++ ts.zipIdx key)
  | [], key, es => by simp [appendFrom]
  | t :: ts, key, es => by
    rw [appendFrom, Dic.of_append, appendFrom_of ts, List.zipIdx_cons]
    simp

theorem putFrom_of {P : Par} : ∀ (ts : List Text) (key : Nat) (es : List (Text × Nat)), (es.map (·.1) ++ ts).Nodup →
    putFrom P key ts (Dic.of P es) = Dic.of P (es ++ ts.zipIdx key)
  | [], key, es, _ => by simp [putFrom]
  | t :: ts, key, es, h => by
    rw [putFrom, Dic.of_put, putFrom_of ts _ _ (by simpa using h), List.zipIdx_cons]
    · simp
    · rw [List.nodup_append] at h
      intro hm
      exact h.2.2 _ hm t (by simp) rfl

theorem zipIdx_fst (ts : List Text) (n : Nat) : (ts.zipIdx n).map (·.1) = ts := by simp
theorem zipIdx_snd (ts : List Text) (n : Nat) : (ts.zipIdx n).map (·.2) = List.range' n ts.length := by simp

/-- The terms of a load with their ids. -/
def loaded (common others : List Text) : List (Text × Nat) := others.zipIdx common.length ++ common.zipIdx 0

theorem load_holds {P : Par} {common others : List Text} (h : (common ++ others).Nodup) (hf : FitsDisk P (loadDict P common others)) :
    ∃ C, Holds P (loadDict P common others) C ∧ C.all = loaded common others := by
  have e : putFrom P 0 common (appendFrom P common.length others Dic.empty) = Dic.of P (loaded common others) := by
    have : (Dic.empty) = Dic.of P [] := rfl
    rw [this, appendFrom_of, putFrom_of]
    · rfl
    · rw [List.nil_append, zipIdx_fst]
      exact (List.perm_append_comm.nodup_iff).1 h
  have hall : (Content.mk (loaded common others) ((loaded common others).foldl (fun n e => max n e.2) 0 + 1) [] [] 0).all = loaded common others := by
    simp [Content.all, Content.dicts]
  have hb : (loadDict P common others).base = Dic.of P (loaded common others) := e
  refine ⟨⟨loaded common others, (loaded common others).foldl (fun n e => max n e.2) 0 + 1, [], [], 0⟩, ⟨hb, ?_, rfl, rfl, ?_, ?_, ?_, by simp, ?_, ?_, by simp, by simp, by simp⟩, hall⟩
  · show (putFrom P 0 common (appendFrom P common.length others Dic.empty)).ids.foldl (fun n e => max n e.2) 0 + 1 = _
    rw [e]; rfl
  · rw [hall]
    unfold loaded
    rw [List.map_append, zipIdx_fst, zipIdx_fst]
    exact (List.perm_append_comm.nodup_iff).1 h
  · rw [hall]
    unfold loaded
    rw [List.map_append, zipIdx_snd, zipIdx_snd, List.nodup_append]
    refine ⟨List.nodup_range', List.nodup_range', ?_⟩
    intro a ha b hb e
    rw [List.mem_range'] at ha hb
    obtain ⟨i, hi, rfl⟩ := ha
    obtain ⟨j, hj, rfl⟩ := hb
    omega
  · simp [Content.dicts]
  · exact fits_of hf hb rfl
  · intro x hx
    have := (foldl_max (fun e : Text × Nat => e.2) (loaded common others) 0).2 x hx
    simp only
    omega

/-! ## Additions -/

theorem flip_flip' (l : List (Nat × Text)) : flip (l.map fun e => (e.2, e.1)) = l := by
  unfold flip
  rw [List.map_map]
  simp [Function.comp_def]

theorem gud_puts : ∀ (l g : List (Text × Nat)) (n : Nat), ((g ++ l).map (·.1)).Nodup → ((g ++ l).map (·.2)).Nodup →
    l.foldl (fun g e => Gud.put g e.2 e.1) ⟨flip g, g, n⟩ = ⟨flip (g ++ l), g ++ l, l.foldl (fun n e => max e.2 n) n⟩
  | [], g, n, _, _ => by simp
  | e :: l, g, n, h1, h2 => by
    have a : Gud.put ⟨flip g, g, n⟩ e.2 e.1 = ⟨flip (g ++ [e]), g ++ [e], max e.2 n⟩ := by
      unfold Gud.put insertNew
      have n1 : g.lookup e.1 = none := by
        rw [lookup_none]
        rw [List.map_append, List.nodup_append] at h1
        intro hm
        exact h1.2.2 _ hm e.1 (by simp) rfl
      have n2 : (flip g).lookup e.2 = none := by
        rw [lookup_none, flip_fst]
        rw [List.map_append, List.nodup_append] at h2
        intro hm
        exact h2.2.2 _ hm e.2 (by simp) rfl
      simp only [n1, n2, Option.isSome_none, Bool.false_eq_true, if_false]
      simp [flip]
    rw [List.foldl_cons, a, gud_puts l (g ++ [e]) _ (by simpa using h1) (by simpa using h2)]
    simp

theorem foldl_max' : ∀ (l : List (Text × Nat)) (n m : Nat), n ≤ l.foldl (fun n e => max e.2 n) n ∧ (∀ u ∈ l, u.2 ≤ l.foldl (fun n e => max e.2 n) n) ∧
    (n < m → (∀ u ∈ l, u.2 < m) → l.foldl (fun n e => max e.2 n) n < m)
  | [], n, m => by simp
  | x :: l, n, m => by
    obtain ⟨a, b, c⟩ := foldl_max' l (max x.2 n) m
    rw [List.foldl_cons]
    refine ⟨by omega, fun u hu => ?_, fun h1 h2 => c (by have := h2 x (by simp); omega) (fun u hu => h2 u (by simp [hu]))⟩
    rcases List.mem_cons.1 hu with rfl | hu
    · omega
    · exact b u hu

/-- Writing the new terms of an update. -/
theorem write_holds {P : Par} {D : Disk} {C : Content} (h : Holds P D C) {M : Mgr} (hM : M.gud = ⟨flip C.gud, C.gud, C.largest⟩)
    {hh : Hash} (ho : hh.Ok) {tmp : List (Text × Nat)} (h1 : (tmp.map (·.1)).Nodup) (h2 : tmp.map (·.2) = List.range' C.next tmp.length)
    (h3 : ∀ x ∈ tmp, x.1 ∉ C.all.map (·.1)) (hs : C.next + tmp.length < 2 ^ 63) (hp : tmp.length < P.large → ∀ x ∈ tmp, Plain x.1)
    (hf : FitsDisk P (writeDict P hh D M tmp)) :
    ∃ C', Holds P (writeDict P hh D M tmp) C' ∧ C'.all.Perm (C.all ++ tmp) := by
  have hnew : ∀ x ∈ tmp, C.next ≤ x.2 ∧ x.2 < C.next + tmp.length := by
    intro x hx
    have : x.2 ∈ tmp.map (·.2) := List.mem_map.2 ⟨x, hx, rfl⟩
    rw [h2, List.mem_range'] at this
    obtain ⟨i, hi, e⟩ := this
    omega
  have hold := next_gt h
  have ht : ((C.all ++ tmp).map (·.1)).Nodup := by
    rw [List.map_append, List.nodup_append]
    refine ⟨h.texts, h1, ?_⟩
    intro a ha b hb e
    obtain ⟨x, hx, rfl⟩ := List.mem_map.1 hb
    exact h3 x hx (e ▸ ha)
  have hi : ((C.all ++ tmp).map (·.2)).Nodup := by
    rw [List.map_append, List.nodup_append]
    refine ⟨h.ids, by rw [h2]; exact List.nodup_range', ?_⟩
    intro a ha b hb e
    obtain ⟨x, hx, rfl⟩ := List.mem_map.1 hb
    obtain ⟨y, hy, rfl⟩ := List.mem_map.1 ha
    have := hold y hy
    have := (hnew x hx).1
    omega
  unfold writeDict at hf ⊢
  by_cases h0 : tmp = []
  · rw [if_pos h0]
    exact ⟨C, h, by rw [h0]; simp⟩
  rw [if_neg h0] at hf ⊢
  have pt := ho.tmp tmp
  by_cases hl : tmp.length < P.large
  · rw [if_pos hl] at hf ⊢
    have hsub : (C.gud ++ hh.tmp tmp).Sublist (C.all ++ hh.tmp tmp) := List.Sublist.append (List.sublist_append_right _ _) (List.Sublist.refl _)
    have q1 : ((C.gud ++ hh.tmp tmp).map (·.1)).Nodup :=
      List.Nodup.sublist (hsub.map _) ((((List.Perm.append_left C.all pt).map _).nodup_iff).2 ht)
    have q2 : ((C.gud ++ hh.tmp tmp).map (·.2)).Nodup :=
      List.Nodup.sublist (hsub.map _) ((((List.Perm.append_left C.all pt).map _).nodup_iff).2 hi)
    rw [hM, gud_puts _ _ _ q1 q2] at *
    have pg := ho.gud (flip (C.gud ++ hh.tmp tmp))
    have hgl : ∀ x ∈ C.gud, x ∈ C.all := fun x hx => List.mem_append_right _ hx
    have hmem : ∀ e ∈ hh.gud (flip (C.gud ++ hh.tmp tmp)), (e.2, e.1) ∈ C.gud ++ tmp := by
      intro e he
      have := pg.mem_iff.1 he
      have := (mem_flip (t := e.2) (i := e.1)).1 this
      exact (List.Perm.append_left C.gud pt).mem_iff.1 this
    have hlar : C.largest < C.next := by unfold Content.next; omega
    obtain ⟨f1, f2, f3⟩ := foldl_max' (hh.tmp tmp) C.largest (2 ^ 64)
    have hb : ∀ x ∈ hh.tmp tmp, x.2 < 2 ^ 64 := fun x hx => by
      have := (hnew x (pt.mem_iff.1 hx)).2
      omega
    have hread := readGud_spec (order := hh.gud) (g := ⟨flip (C.gud ++ hh.tmp tmp), C.gud ++ hh.tmp tmp, (hh.tmp tmp).foldl (fun n e => max e.2 n) C.largest⟩)
      (f3 (by omega) hb) (by
        intro e he
        rcases List.mem_append.1 (hmem e he) with hx | hx
        · exact ⟨by have := hold _ (hgl _ hx); simp only at this; omega, h.plain _ hx⟩
        · exact ⟨by have := (hnew _ hx).2; simp only at this; omega, hp hl _ hx⟩) (by
        rw [(pg.map _).nodup_iff, flip_fst]; exact q2) (by
        rw [(pg.map _).nodup_iff]
        simpa [flip, Function.comp_def] using q1)
    have pall : (C.dicts.flatten ++ (hh.gud (flip (C.gud ++ hh.tmp tmp))).map fun e => (e.2, e.1)).Perm (C.all ++ tmp) := by
      unfold Content.all
      rw [List.append_assoc]
      refine List.Perm.append_left _ ?_
      refine (pg.map _).trans ?_
      have : (flip (C.gud ++ hh.tmp tmp)).map (fun e => (e.2, e.1)) = C.gud ++ hh.tmp tmp := by
        unfold flip
        rw [List.map_map]
        simp [Function.comp_def]
      rw [this]
      exact List.Perm.append_left _ pt
    refine ⟨{ C with gud := (hh.gud (flip (C.gud ++ hh.tmp tmp))).map (fun e => (e.2, e.1)), largest := (hh.tmp tmp).foldl (fun n e => max e.2 n) C.largest },
      ⟨h.base, h.baseNext, h.upds, ?_, ?_, ?_, h.rising, h.filled, h.fits, h.small, h.small', ?_, ?_⟩, pall⟩
    · simp only [Option.elim_some]
      rw [hread, flip_flip']
    · exact ((pall.map _).nodup_iff).2 ht
    · exact ((pall.map _).nodup_iff).2 hi
    · intro x hx
      obtain ⟨e, he, rfl⟩ := List.mem_map.1 hx
      rcases List.mem_append.1 (hmem e he) with hx | hx
      · exact Nat.le_trans (h.smallGud _ hx) f1
      · exact f2 _ (pt.mem_iff.2 hx)
    · intro x hx
      obtain ⟨e, he, rfl⟩ := List.mem_map.1 hx
      rcases List.mem_append.1 (hmem e he) with hx | hx
      · exact h.plain _ hx
      · exact hp hl _ hx
  · rw [if_neg hl] at hf ⊢
    have e1 : (hh.tmp tmp).foldl (fun d e => d.put P e.1 e.2) Dic.empty = Dic.of P (hh.tmp tmp) := by
      have := Dic.puts_of (P := P) (hh.tmp tmp) [] (by rw [List.nil_append]; exact ((pt.map _).nodup_iff).2 h1)
      rw [List.nil_append] at this
      exact this
    rw [e1] at hf ⊢
    have pall : (Content.mk C.base C.baseNext (C.upds ++ [(hh.tmp tmp, (hh.tmp tmp).foldl (fun n e => max n e.2) 0 + 1)]) C.gud C.largest).all.Perm (C.all ++ tmp) := by
      unfold Content.all Content.dicts
      simp only [List.map_append, List.flatten_cons, List.flatten_append, List.map_cons, List.map_nil, List.flatten_nil, List.append_nil, List.append_assoc]
      refine List.Perm.append_left _ (List.Perm.append_left _ ?_)
      exact List.perm_append_comm.trans (List.Perm.append_left _ pt)
    have hu : D.upds ++ [(Dic.of P (hh.tmp tmp), (hh.tmp tmp).foldl (fun n e => max n e.2) 0 + 1)] =
        (C.upds ++ [(hh.tmp tmp, (hh.tmp tmp).foldl (fun n e => max n e.2) 0 + 1)]).map fun u => (Dic.of P u.1, u.2) := by
      rw [h.upds]; simp
    refine ⟨⟨C.base, C.baseNext, C.upds ++ [(hh.tmp tmp, (hh.tmp tmp).foldl (fun n e => max n e.2) 0 + 1)], C.gud, C.largest⟩,
      ⟨h.base, h.baseNext, hu, h.gud, ?_, ?_, ?_, ?_, ?_, h.small, ?_, h.smallGud, h.plain⟩, pall⟩
    · exact ((pall.map _).nodup_iff).2 ht
    · exact ((pall.map _).nodup_iff).2 hi
    · unfold Content.dicts
      simp only [List.map_append, List.map_cons, List.map_nil]
      rw [← List.cons_append, List.pairwise_append]
      refine ⟨h.rising, by simp, ?_⟩
      intro a ha b hb x hx y hy
      simp only [List.mem_singleton] at hb
      subst hb
      have := hold x (List.mem_append_left _ (List.mem_flatten.2 ⟨a, ha, hx⟩))
      have := (hnew y (pt.mem_iff.1 hy)).1
      omega
    · intro u hu
      rcases List.mem_append.1 hu with hu | hu
      · exact h.filled u hu
      · simp only [List.mem_singleton] at hu
        subst hu
        intro e
        have := pt.length_eq
        simp only at e
        rw [e] at this
        exact h0 (List.length_eq_zero_iff.1 this.symm)
    · exact fits_of hf h.base hu
    · intro u hu
      rcases List.mem_append.1 hu with hu | hu
      · exact h.small' u hu
      · simp only [List.mem_singleton] at hu
        subst hu
        intro x hx
        have := (foldl_max (fun e : Text × Nat => e.2) (hh.tmp tmp) 0).2 x hx
        simp only
        omega

/-! ## Merging -/

theorem drain_of {σ α : Type} {I : Itr σ α} : ∀ (l : List α) (s : σ) (n : Nat), Yields I s l → l.length < n → drain I n s = l
  | [], s, n + 1, h, _ => by rw [yields_nil] at h; simp [drain, h]
  | x :: l, s, n + 1, h, hn => by
    rw [yields_cons] at h
    rw [drain, if_pos h.1, h.2.1, drain_of l _ n h.2.2 (by simpa using hn)]

theorem nodup_of_map {α β : Type} {f : α → β} {l : List α} (h : (l.map f).Nodup) : l.Nodup := by
  rw [List.nodup_iff_pairwise_ne, List.pairwise_map] at h
  rw [List.nodup_iff_pairwise_ne]
  exact h.imp fun h e => h (by rw [e])

/-- Two entries with the same id are the same. -/
theorem same_id {es : List (Text × Nat)} (hn : (es.map (·.2)).Nodup) {x y : Text × Nat} (hx : x ∈ es) (hy : y ∈ es) (e : x.2 = y.2) : x = y := by
  have h1 := lookup_of_mem (l := flip es) (by rw [flip_fst]; exact hn) (mem_flip.2 (show (x.1, x.2) ∈ es from hx))
  have h2 := lookup_of_mem (l := flip es) (by rw [flip_fst]; exact hn) (mem_flip.2 (show (y.1, y.2) ∈ es from hy))
  rw [e, h2] at h1
  have : y.1 = x.1 := by simpa using h1
  exact Prod.ext this.symm e

theorem copy_loop {P : Par} {es : List (Text × Nat)} (hf : FitsPool P (es.map (·.1))) : ∀ (l : List (Int × Nat)) (acc : List (Text × Nat)),
    (∀ e ∈ l, ∃ t pre post, es = pre ++ (t, e.1.toNat) :: post ∧ e.1 = (e.1.toNat : Int) ∧ e.2 = posOf P.B (pre.map (·.1))) →
    ∃ es', es'.map (·.2) = l.map (fun e => e.1.toNat) ∧ (∀ x ∈ es', x ∈ es) ∧
      (l.map fun e => (e.1, some e.2)).foldl (fun (acc : Option Dic) (e : Int × Option Nat) => acc.bind fun a =>
        ((e.2.bind fun pos => (((added P.B (es.map (·.1))).close P.B).view P.B P.junk).get P.B P.junk pos).map fun t => a.append P t e.1.toNat))
        (some (Dic.of P acc)) = some (Dic.of P (acc ++ es'))
  | [], acc, _ => ⟨[], rfl, by simp, by simp⟩
  | e :: l, acc, h => by
    obtain ⟨t, pre, post, hs, -, hp⟩ := h e (by simp)
    obtain ⟨es', a, b, c⟩ := copy_loop hf l (acc ++ [(t, e.1.toNat)]) (fun x hx => h x (by simp [hx]))
    refine ⟨(t, e.1.toNat) :: es', by simp [a], ?_, ?_⟩
    · intro x hx
      rcases List.mem_cons.1 hx with rfl | hx
      · rw [hs]; simp
      · exact b x hx
    · have em : es.map (·.1) = pre.map (·.1) ++ t :: post.map (·.1) := by rw [hs]; simp
      have hp' := hf.pool
      have hr' := hf.rest (by rw [hs]; simp)
      have hg : (((added P.B (es.map (·.1))).close P.B).view P.B P.junk).get P.B P.junk e.2 = some t := by
        rw [hp]
        rw [em] at hp' hr' ⊢
        exact (C37_reopen_partial P.junk hp' hr').1
      rw [List.map_cons, List.foldl_cons]
      simp only [Option.bind_some, hg, Option.map_some, Dic.of_append]
      simp only [List.append_assoc, List.cons_append, List.nil_append] at c
      exact c

theorem copy_of {P : Par} (hm : 0 < P.m) {es : List (Text × Nat)} (hf : FitsPool P (es.map (·.1))) (hn : (es.map (·.2)).Nodup) (acc : List (Text × Nat)) :
    ∃ es', es'.Perm es ∧ copyDict P (Dic.of P es) (some (Dic.of P acc)) = some (Dic.of P (acc ++ es')) := by
  obtain ⟨l, a, b, c, d⟩ := Dic.iterates (P := P) hm hn
  obtain ⟨es', e1, e2, e3⟩ := copy_loop hf l acc c
  have nd : (l.map fun e => e.1.toNat).Nodup := by
    rw [List.nodup_iff_pairwise_ne, List.pairwise_map]
    refine List.Pairwise.imp_of_mem ?_ b
    intro x y hx hy hlt
    obtain ⟨-, -, -, -, e1, -⟩ := c x hx
    obtain ⟨-, -, -, -, e2, -⟩ := c y hy
    omega
  have nd' : (es'.map (·.2)).Nodup := by rw [e1]; exact nd
  have hp : es'.Perm es := by
    refine (List.perm_ext_iff_of_nodup (nodup_of_map nd') (nodup_of_map hn)).2 ?_
    intro x
    refine ⟨e2 x, fun hx => ?_⟩
    obtain ⟨e, he, hex⟩ := d x hx
    have : x.2 ∈ es'.map (·.2) := by
      rw [e1]
      exact List.mem_map.2 ⟨e, he, by omega⟩
    obtain ⟨y, hy, hyx⟩ := List.mem_map.1 this
    rw [same_id hn hx (e2 y hy) hyx.symm]
    exact hy
  have hlen : l.length = es.length := by
    rw [← hp.length_eq, ← List.length_map (f := (·.2)) (as := es'), e1, List.length_map]
  have hinv : (Dic.of P es).inv.length = es.length := by
    have := congrArg List.length (invOf_keys P.B es [])
    simpa [Dic.of] using this
  refine ⟨es', hp, ?_⟩
  unfold copyDict
  rw [drain_of _ _ _ a (by rw [List.length_map, hinv]; omega)]
  exact e3

theorem merge_loop {P : Par} (hm : 0 < P.m) : ∀ (us : List (List (Text × Nat) × Nat)) (acc : List (Text × Nat)),
    (∀ u ∈ us, FitsPool P (u.1.map (·.1)) ∧ (u.1.map (·.2)).Nodup) →
    ∃ es', es'.Perm (us.map (·.1)).flatten ∧
      (us.map fun u => (Dic.of P u.1, u.2)).foldl (fun acc u => copyDict P u.1 acc) (some (Dic.of P acc)) = some (Dic.of P (acc ++ es'))
  | [], acc, _ => ⟨[], by simp, by simp⟩
  | u :: us, acc, h => by
    obtain ⟨e1, p1, c1⟩ := copy_of hm (h u (by simp)).1 (h u (by simp)).2 acc
    obtain ⟨e2, p2, c2⟩ := merge_loop hm us (acc ++ e1) (fun x hx => h x (by simp [hx]))
    refine ⟨e1 ++ e2, ?_, ?_⟩
    · rw [List.map_cons, List.flatten_cons]
      exact p1.append p2
    · rw [List.map_cons, List.foldl_cons, c1, c2, List.append_assoc]

/-- Merging the dictionaries of the updates, when there is no file with terms of small updates. -/
theorem merge_holds {P : Par} (hm : 0 < P.m) {D D' : Disk} {C : Content} (h : Holds P D C) (hg : D.gud = none) (hd : mergeDicts P D = some D')
    (hf : FitsDisk P D') : ∃ C', Holds P D' C' ∧ C'.all.Perm C.all := by
  have hg' : C.gud = [] ∧ C.largest = 0 := by
    have := h.gud
    rw [hg] at this
    simp only [Option.elim_none, Option.some.injEq] at this
    injection this with a b c
    exact ⟨b.symm, c.symm⟩
  unfold mergeDicts at hd
  by_cases hu : D.upds = []
  · rw [if_pos hu] at hd
    simp only [Option.some.injEq] at hd
    have : D' = D := by
      rw [← hd, ← hg]
    rw [this]
    exact ⟨C, h, .refl _⟩
  rw [if_neg hu] at hd
  have hids := nodup_sub h.ids
  have hin : ∀ u ∈ C.upds, u.1 ∈ C.dicts := fun u hu => List.mem_cons_of_mem _ (List.mem_map.2 ⟨u, hu, rfl⟩)
  obtain ⟨es, p, c⟩ := merge_loop hm C.upds [] (fun u hu => ⟨h.fits _ (hin u hu), hids _ (hin u hu)⟩)
  have c' : D.upds.foldl (fun acc u => copyDict P u.1 acc) (some Dic.empty) = some (Dic.of P es) := by
    rw [h.upds]
    rw [List.nil_append] at c
    exact c
  rw [c'] at hd
  simp only [Option.map_some, Option.some.injEq] at hd
  subst hd
  have pall : (Content.mk C.base C.baseNext [(es, es.foldl (fun n e => max n e.2) 0 + 1)] [] 0).all.Perm C.all := by
    unfold Content.all Content.dicts
    simp only [List.map_cons, List.map_nil, List.flatten_cons, List.flatten_nil, List.append_nil, hg'.1]
    exact List.Perm.append_left _ p
  have hne : es ≠ [] := by
    intro e
    rw [e] at p
    have : C.upds ≠ [] := by
      intro e'
      rw [h.upds, e'] at hu
      exact hu rfl
    cases hc : C.upds with
    | nil => exact this hc
    | cons u us =>
      rw [hc] at p
      have h1 := p.nil_eq
      simp only [List.map_cons, List.flatten_cons] at h1
      have h2 := h.filled u (by rw [hc]; simp)
      have h3 : u.1 ++ (us.map (·.1)).flatten = [] := h1.symm
      exact h2 (List.append_eq_nil_iff.1 h3).1
  refine ⟨⟨C.base, C.baseNext, [(es, es.foldl (fun n e => max n e.2) 0 + 1)], [], 0⟩, ⟨h.base, h.baseNext, rfl, rfl, ?_, ?_, ?_, ?_, ?_, h.small, ?_, by simp, by simp⟩, pall⟩
  · exact ((pall.map _).nodup_iff).2 h.texts
  · exact ((pall.map _).nodup_iff).2 h.ids
  · unfold Content.dicts
    simp only [List.map_cons, List.map_nil]
    rw [List.pairwise_cons]
    refine ⟨?_, by simp⟩
    intro b hb x hx y hy
    simp only [List.mem_singleton] at hb
    subst hb
    obtain ⟨u, hu, hy⟩ := List.mem_flatten.1 (p.mem_iff.1 hy)
    have := h.rising
    unfold Content.dicts at this
    rw [List.pairwise_cons] at this
    exact this.1 u hu x hx y hy
  · intro u hu
    simp only [List.mem_singleton] at hu
    rw [hu]; exact hne
  · exact fits_of hf h.base rfl
  · intro u hu x hx
    simp only [List.mem_singleton] at hu
    subst hu
    have := (foldl_max (fun e : Text × Nat => e.2) es 0).2 x hx
    simp only
    omega

end Trident.Dict
