import Verif.Update.Diff3
import Verif.Load.LoaderProofs
/-! Helper proofs for the tables of an update (no property statements here). -/
namespace Trident.Diff3
open Load Strat

/-! ## Packed pairs -/

theorem pack_lt {a b : Nat} (ha : a < 2 ^ 32) (hb : b < 2 ^ 32) : pack a b = a * 2 ^ 32 + b := by
  unfold pack; omega

theorem hi_pack {a b : Nat} (ha : a < 2 ^ 32) (hb : b < 2 ^ 32) : hi (pack a b) = a := by
  rw [pack_lt ha hb]; unfold hi; omega

theorem lo_pack {a b : Nat} (ha : a < 2 ^ 32) (hb : b < 2 ^ 32) : lo (pack a b) = b := by
  rw [pack_lt ha hb]; unfold lo; omega

theorem dedup_spec {t : List Nat} (h : t.Pairwise (· ≤ ·)) {prev} (hp : ∀ x ∈ t, prev ≤ x) :
    (dedup prev t).Pairwise (· < ·) ∧ ∀ x, x ∈ dedup prev t ↔ x ∈ t ∧ x ≠ prev := by
  induction t generalizing prev with
  | nil => simp [dedup]
  | cons y l ih =>
    rw [List.pairwise_cons] at h
    rw [dedup]
    by_cases hy : y = prev
    · subst hy
      obtain ⟨i1, i2⟩ := ih h.2 h.1
      rw [if_neg (by simp)]
      refine ⟨i1, fun x => (i2 x).trans ?_⟩
      simp only [List.mem_cons]
      constructor
      · rintro ⟨a, b⟩; exact ⟨.inr a, b⟩
      · rintro ⟨rfl | a, b⟩
        · exact absurd rfl b
        · exact ⟨a, b⟩
    · obtain ⟨i1, i2⟩ := ih h.2 h.1
      rw [if_pos hy]
      refine ⟨List.pairwise_cons.2 ⟨fun x hx => ?_, i1⟩, fun x => ?_⟩
      · obtain ⟨a, b⟩ := (i2 x).1 hx
        have := h.1 x a
        omega
      · rw [List.mem_cons, List.mem_cons, i2]
        have := hp y (by simp)
        constructor
        · rintro (rfl | ⟨a, b⟩)
          · exact ⟨.inl rfl, hy⟩
          · have := h.1 x a
            exact ⟨.inr a, by omega⟩
        · rintro ⟨rfl | a, b⟩
          · exact .inl rfl
          · by_cases e : x = y
            · exact .inl e
            · exact .inr ⟨a, e⟩

/-- The words of a table: sorted, not empty, of 64 bits, and not starting with the word that the writers take as `no
previous pair`. -/
structure Words (t : List Nat) : Prop where
  sorted : t.Pairwise (· ≤ ·)
  ne : t ≠ []
  lt : ∀ x ∈ t, x < 2 ^ 64
  head : t.head? ≠ some sentinel

theorem Words.dedup {t} (h : Words t) : (dedup sentinel t).Pairwise (· < ·) ∧ ∀ x, x ∈ dedup sentinel t ↔ x ∈ t := by
  obtain ⟨h1, h2, -, h4⟩ := h
  cases t with
  | nil => exact absurd rfl h2
  | cons y l =>
    rw [List.pairwise_cons] at h1
    have hy : y ≠ sentinel := by simpa using h4
    obtain ⟨i1, i2⟩ := dedup_spec h1.2 h1.1
    rw [Diff3.dedup, if_pos hy]
    refine ⟨List.pairwise_cons.2 ⟨fun x hx => ?_, i1⟩, fun x => ?_⟩
    · obtain ⟨a, b⟩ := (i2 x).1 hx
      have := h1.1 x a
      omega
    · rw [List.mem_cons, List.mem_cons, i2]
      constructor
      · rintro (rfl | ⟨a, b⟩)
        · exact .inl rfl
        · exact .inr a
      · rintro (rfl | a)
        · exact .inl rfl
        · by_cases e : x = y
          · exact .inl e
          · exact .inr ⟨a, e⟩

theorem mem_rows {t} (h : Words t) {p : Nat × Nat} : p ∈ rows t ↔ ∃ x ∈ t, p = (hi x, lo x) := by
  unfold rows
  rw [List.mem_map]
  constructor
  · rintro ⟨x, hx, rfl⟩; exact ⟨x, (h.dedup.2 x).1 hx, rfl⟩
  · rintro ⟨x, hx, rfl⟩; exact ⟨x, (h.dedup.2 x).2 hx, rfl⟩

theorem rows_sorted {t} (h : Words t) : SortedS (toI (rows t)) := by
  unfold rows toI
  rw [List.map_map]
  refine List.pairwise_map.2 (h.dedup.1.imp fun {a b} hab => ?_)
  simp only [Function.comp, Pair.lt, hi, lo]
  omega

theorem rows_ne {t} (h : Words t) : rows t ≠ [] := by
  obtain ⟨x, hx⟩ := List.exists_mem_of_ne_nil _ h.ne
  exact List.ne_nil_of_mem ((mem_rows h).2 ⟨x, hx, rfl⟩)

theorem dedup_length (prev : Nat) (t : List Nat) : (dedup prev t).length ≤ t.length := by
  induction t generalizing prev with
  | nil => simp [dedup]
  | cons x l ih =>
    rw [dedup]
    split
    · have := ih x; simp; omega
    · have := ih prev; simp; omega

theorem rows_length (t : List Nat) : (rows t).length ≤ t.length := by
  unfold rows; simpa using dedup_length _ t

theorem le_maxHi {t} (h : Words t) {x : Nat} (hx : x ∈ t) : hi x ≤ maxHi t := by
  unfold maxHi
  have hl : t.getLast? = some (t.getLast h.ne) := List.getLast?_eq_some_getLast h.ne
  rw [hl]
  have : x ≤ t.getLast h.ne := by
    have := List.dropLast_concat_getLast h.ne
    have hs := h.sorted
    rw [← this] at hs hx
    rcases List.mem_append.1 hx with hx | hx
    · exact (List.pairwise_append.1 hs).2.2 x hx _ (by simp)
    · simp at hx; omega
  simp only [Option.getD_some, hi]
  omega

theorem maxHi_lt {t} (h : Words t) : maxHi t < 2 ^ 32 := by
  unfold maxHi
  rw [List.getLast?_eq_some_getLast h.ne]
  have := h.lt _ (List.getLast_mem h.ne)
  simp only [Option.getD_some, hi]
  omega

/-- `t'` are the words of `t` with the two halves swapped. -/
def Swapped (t t' : List Nat) : Prop := ∀ a b, (∃ x ∈ t, hi x = a ∧ lo x = b) ↔ ∃ y ∈ t', hi y = b ∧ lo y = a

theorem Swapped.symm {t t'} (h : Swapped t t') : Swapped t' t := fun a b => (h b a).symm

theorem Swapped.lo_le {t t'} (h : Swapped t t') (h' : Words t') {x} (hx : x ∈ t) : lo x ≤ maxHi t' := by
  obtain ⟨y, hy, e1, -⟩ := (h (hi x) (lo x)).1 ⟨x, hx, rfl, rfl⟩
  rw [← e1]; exact le_maxHi h' hy

theorem nbytes_flag {n : Nat} (h : n < 2 ^ 32) : flag (nbytes n) ≤ 2 := by
  have h1 : nbytes n ≤ 4 := nbytes_le (by omega) (by omega)
  unfold flag
  split
  · omega
  · split
    · omega
    · rw [if_pos (by omega)]; omega

theorem copyWidth_eq {f : Nat} (h : f ≤ 2) : copyWidth f = flagWidth f := by
  have : f = 0 ∨ f = 1 ∨ f = 2 := by omega
  rcases this with rfl | rfl | rfl <;> rfl

/-- The table at `c` answers lookups on the pairs `ps`. -/
def DHolds (m : Mem) (base : Nat) (c : DCoord) (ps : List Pair) : Prop :=
  ps ≠ [] ∧ SortedS ps ∧ (∀ p ∈ ps, 0 ≤ p.1 ∧ 0 ≤ p.2) ∧
    ∀ v1 v2, (openTab m base c v1 v2).Returns (matching ps v1 v2)

theorem toI_nonneg {l : List (Nat × Nat)} : ∀ p ∈ toI l, 0 ≤ p.1 ∧ 0 ≤ p.2 := by
  intro p hp
  obtain ⟨q, -, rfl⟩ := List.mem_map.1 hp
  constructor <;> simp

theorem openTab_row {m : Mem} {base : Nat} {c : DCoord} {w1 w2 : Width} (h : decode c.strat = some (.row w1 w2)) (v1 v2 : Option Int) :
    openTab m base c v1 v2 = Obj.tab m (Strat.openTab m ((base : Int) + c.file * 2 ^ 16 + c.mark).toNat
      (((base : Int) + c.file * 2 ^ 16 + c.mark).toNat + c.n * (w1.size + w2.size)) (.row w1 w2) v1 v2) := by
  unfold openTab openT; simp only [h]

theorem openTab_column {m : Mem} {base : Nat} {c : DCoord} (h : decode c.strat = some .column) (v1 v2 : Option Int) :
    openTab m base c v1 v2 = Obj.tab m (Strat.openTab m (((base : Int) + c.file * 2 ^ 16 + c.mark).toNat + 4)
      (((base : Int) + c.file * 2 ^ 16 + c.mark).toNat + (rdInt m ((base : Int) + c.file * 2 ^ 16 + c.mark).toNat).toNat) .column v1 v2) := by
  unfold openTab openT; simp only [h]

theorem rowEncode_holds {m : Mem} {base : Nat} {t t' : List Nat} (h : Words t) (h' : Words t') (hsw : Swapped t t') {c : DCoord} {a : Nat}
    (hc : (base : Int) + c.file * 2 ^ 16 + c.mark = a)
    (hst : c.strat = rowStrat (flag (nbytes (maxHi t))) (flag (nbytes (maxHi t')))) (hn : c.n = (rows t).length)
    (hp : Placed m a (rowEncode (flag (nbytes (maxHi t))) (flag (nbytes (maxHi t'))) t)) :
    DHolds m base c (toI (rows t)) := by
  have f1 := nbytes_flag (maxHi_lt h)
  have f2 := nbytes_flag (maxHi_lt h')
  have c1 := nbytes_cap (n := maxHi t) (by have := maxHi_lt h; omega)
  have c2 := nbytes_cap (n := maxHi t') (by have := maxHi_lt h'; omega)
  generalize hg1 : flag (nbytes (maxHi t)) = g1 at *
  generalize hg2 : flag (nbytes (maxHi t')) = g2 at *
  unfold rowEncode at hp
  rw [copyWidth_eq f1, copyWidth_eq f2] at hp
  have hr : Readable (.row (flagWidth g1) (flagWidth g2)) (rows t) := by
    intro p hp'
    obtain ⟨x, hx, rfl⟩ := (mem_rows h).1 hp'
    have := h.lt x hx
    exact ⟨cap_safe (Nat.lt_of_le_of_lt (le_maxHi h hx) c1) (by simp only [hi]; omega),
      cap_safe (Nat.lt_of_le_of_lt (hsw.lo_le h' hx) c2) (by simp only [lo]; omega)⟩
  refine ⟨by simpa [toI] using rows_ne h, rows_sorted h, toI_nonneg, fun v1 v2 => ?_⟩
  have hd : decode c.strat = some (.row (flagWidth g1) (flagWidth g2)) := by
    rw [hst, rowStrat]; exact decode_row_flags (by omega) (by omega)
  have := C08_any_layout_partial (.row (flagWidth g1) (flagWidth g2)) 0 (rows t) m a hr (rows_sorted h) (rows_ne h) hp v1 v2
  rw [openTab_row hd, hc, hn]
  rw [Layout.encode, Row.encode_length] at this
  exact this

/-! ## Column format -/

theorem decVMem_fixed {m : Mem} {w a n fuel : Nat} (hn : n < 128 ^ (w + 1)) (h : Placed m a (encVFixed (w + 1) n)) (hf : w + 1 ≤ fuel) :
    decVMem m fuel a = (n, a + (w + 1)) := by
  induction w generalizing a n fuel with
  | zero =>
    obtain ⟨f, rfl⟩ : ∃ f, fuel = f + 1 := ⟨fuel - 1, by omega⟩
    simp only [encVFixed, placed_cons] at h
    have : n < 128 := by simpa using hn
    have e : (UInt8.ofNat (n % 128)).toNat = n := by simp; omega
    simp [decVMem, h.1, e, this]
  | succ w ih =>
    obtain ⟨f, rfl⟩ : ∃ f, fuel = f + 1 := ⟨fuel - 1, by omega⟩
    simp only [encVFixed, placed_cons] at h
    have e : (UInt8.ofNat (128 + n % 128)).toNat = 128 + n % 128 := by simp; omega
    have := ih (a := a + 1) (n := n / 128) (fuel := f) (by rw [Nat.pow_succ] at hn; omega) h.2 (by omega)
    simp only [decVMem, h.1, e, this]
    rw [if_neg (by omega)]
    ext <;> simp <;> omega

theorem encVFixed_length (w n : Nat) : (encVFixed w n).length = w := by
  induction w generalizing n with
  | zero => rfl
  | succ w ih =>
    cases w with
    | zero => rfl
    | succ w => simp [encVFixed, ih]

open Column in
/-- The loop writes the blocks of the groups. -/
theorem colStep_fold (b1 bc bo : Nat) (l : List (Nat × Nat)) (s : ColSt) (k : Nat) (vs : List Nat) (o : Nat) (hvs : vs ≠ []) (hc : s.cur = some (k, o))
    (hv : s.valid = o + vs.length) :
    (l.foldl (colStep b1 bc bo) s).flush b1 bc bo = s.bytes ++ blocks b1 bc bo o (groups ((vs.map fun v => (k, v)) ++ l)) ∧
      (l.foldl (colStep b1 bc bo) s).n + 1 = s.n + (groups ((vs.map fun v => (k, v)) ++ l)).length := by
  induction l generalizing s k vs o with
  | nil =>
    simp only [List.foldl_nil, List.append_nil]
    rw [groups_block k vs hvs]
    simp [ColSt.flush, hc, blocks, hv]
  | cons p l ih =>
    rw [List.foldl_cons]
    by_cases hk : p.1 = k
    · have e : colStep b1 bc bo s p = { s with valid := s.valid + 1 } := by
        unfold colStep
        rw [if_pos (by simp [hc, hk])]
      rw [e]
      have := ih { s with valid := s.valid + 1 } k (vs ++ [p.2]) o (by simp) hc (by simp [hv]; omega)
      simp only [List.map_append, List.map_cons, List.map_nil, List.append_assoc, List.cons_append, List.nil_append] at this
      rw [← hk] at this ⊢
      exact this
    · have e : colStep b1 bc bo s p = { bytes := s.flush b1 bc bo, cur := some (p.1, s.valid), n := s.n + 1, valid := s.valid + 1 } := by
        unfold colStep
        rw [if_neg (by simp [hc]; omega)]
      rw [e]
      have := ih { bytes := s.flush b1 bc bo, cur := some (p.1, s.valid), n := s.n + 1, valid := s.valid + 1 } p.1 [p.2] s.valid
        (by simp) rfl rfl
      rw [groups_block_append k vs hvs (p :: l) (by intro q r hq; cases hq; exact hk)]
      refine ⟨?_, ?_⟩
      · rw [this.1]
        simp [ColSt.flush, hc, blocks, hv]
      · rw [this.2]
        show s.n + 1 + (groups (p :: l)).length = _
        rw [List.length_cons]; omega

open Column in
theorem colBlocks (b1 bc bo : Nat) {l : List (Nat × Nat)} (hl : l ≠ []) :
    (l.foldl (colStep b1 bc bo) ⟨[], none, 0, 0⟩).flush b1 bc bo = blocks b1 bc bo 0 (groups l) ∧
      (l.foldl (colStep b1 bc bo) ⟨[], none, 0, 0⟩).n = (groups l).length := by
  cases l with
  | nil => exact absurd rfl hl
  | cons p l =>
    rw [List.foldl_cons]
    have e : colStep b1 bc bo ⟨[], none, 0, 0⟩ p = ⟨[], some (p.1, 0), 1, 1⟩ := by
      simp [colStep, ColSt.flush]
    rw [e]
    have := colStep_fold b1 bc bo l ⟨[], some (p.1, 0), 1, 1⟩ p.1 [p.2] 0 (by simp) rfl rfl
    refine ⟨by rw [this.1]; rfl, ?_⟩
    have h2 := this.2
    show _ = (groups (p :: l)).length
    have h3 : (groups (p :: l)).length = (groups (List.map (fun v => (p.1, v)) [p.2] ++ l)).length := rfl
    rw [h3]
    simp only at h2
    omega

open Column in
theorem groups_length_le (l : List (Nat × Nat)) : (groups l).length ≤ l.length := by
  rw [← tot_groups l]
  have : ∀ (gs : List (Nat × List Nat)), (∀ g ∈ gs, g.2 ≠ []) → gs.length ≤ tot gs gs.length := by
    intro gs
    induction gs with
    | nil => simp
    | cons g gs ih =>
      intro hne
      simp only [List.length_cons, tot_cons]
      have := ih (fun g hg => hne g (by simp [hg]))
      have := List.length_pos_iff.2 (hne g (by simp))
      omega
  exact this _ (fun g hg => groups_ne hg)

open Column in
/-- A column table whose header is read as given, followed by its blocks and second values. -/
theorem tabAt_of_parts {m : Mem} {a e q q' nt b1 b2 bc bo : Nat} {l : List (Nat × Nat)} (hw : Widths (groups l) b1 b2 bc bo)
    (h1 : m a = UInt8.ofNat (b1 * 8 + b2 % 8)) (h2 : m (a + 1) = UInt8.ofNat (bc * 8 + bo % 8))
    (d1 : decVMem m 10 (a + 2) = ((groups l).length, q')) (d2 : decVMem m 10 q' = (nt, q))
    (h5 : Placed m q (blocks b1 bc bo 0 (groups l)))
    (h6 : Placed m (q + (blocks b1 bc bo 0 (groups l)).length) (l.flatMap fun p => encBE b2 p.2))
    (he : e = q + (blocks b1 bc bo 0 (groups l)).length + l.length * b2) :
    ∃ L : Lay, TabAt m L ((groups l).map grpI) ∧ Good L ((groups l).map grpI) (setup m a e) (toI l) := by
  have w1 := hw.m1; have w2 := hw.m2; have wc := hw.mc; have wo := hw.mo
  have e1 : (UInt8.ofNat (b1 * 8 + b2 % 8)).toNat = b1 * 8 + b2 := by simp; omega
  have e2 : (UInt8.ofNat (bc * 8 + bo % 8)).toNat = bc * 8 + bo := by simp; omega
  have hwo := hw.o
  rw [blocks_length] at h6 he
  have hrun : setup m a e =
      { b1 := b1, b2 := b2, bc := bc, bo := bo, v1 := -1, v2 := -1, nTerms := nt,
        nUnique := (groups l).length, count := 0, scanned := 0,
        stop := e, startpos1 := q, startpos2 := q + (b1 + bc + bo) * (groups l).length, startblock2 := 0,
        pos1 := q, pos2 := q + (b1 + bc + bo) * (groups l).length, ign := false, sv1 := 0, spos1 := 0, scount := 0,
        sscanned := 0, sstartblock2 := 0, sv2 := 0, spos2 := 0 } := by
    rw [setup]
    simp only [h1, h2, e1, e2, d1, d2]
    have x1 : (b1 * 8 + b2) / 8 % 8 = b1 := by omega
    have x2 : (b1 * 8 + b2) % 8 = b2 := by omega
    have x3 : (bc * 8 + bo) / 8 % 8 = bc := by omega
    have x4 : (bc * 8 + bo) % 8 = bo := by omega
    simp only [x1, x2, x3, x4]
  refine ⟨⟨b1, b2, bc, bo, q, q + (b1 + bc + bo) * (groups l).length⟩, ?_, ?_⟩
  · have hbl := fun i hi => blocks_read h5 hw.k hw.c (by simpa using hwo) i hi
    constructor
    · intro i hi
      simp only [List.length_map] at hi
      simp only [Lay.B, List.getElem_map, grpI]; exact (hbl i hi).1
    · intro i hi
      simp only [List.length_map] at hi
      simp only [Lay.B, List.getElem_map, grpI, List.length_map]; exact (hbl i hi).2.1
    · intro i hi
      simp only [List.length_map] at hi
      simp only [Lay.B, tot_map]; simpa using (hbl i hi).2.2
    · intro i hi j hj
      simp only [List.length_map] at hi
      simp only [List.getElem_map, grpI, List.length_map] at hj
      simp only [tot_map, List.getElem_map, grpI]
      obtain ⟨g1, g2⟩ := flatMap_get (groups l) i hi j hj
      have hvs : ∀ v ∈ (groups l).flatMap (·.2), v < 256 ^ b2 := by
        intro v hv
        obtain ⟨g, hg, hv⟩ := List.mem_flatMap.1 hv
        exact hw.v g hg v hv
      rw [show (l.flatMap fun p => encBE b2 p.2) = (l.map (·.2)).flatMap (encBE b2) by rw [List.flatMap_map], ← flatMap_groups] at h6
      have := values_read h6 hvs _ g1
      rw [g2, Nat.mul_comm _ (b1 + bc + bo)] at this
      exact this
    · simp [Lay.B, Nat.mul_comm]
    · exact hw.p1
    · exact hw.p2
    · intro g hg
      obtain ⟨x, hx, rfl⟩ := List.mem_map.1 hg
      simpa [grpI] using groups_ne hx
  · rw [hrun, ← ungroup_groups]
    refine .inr ⟨⟨rfl, rfl, rfl, rfl, rfl, ?_⟩, rfl, .inl ⟨0, ⟨Nat.zero_le _, rfl, ?_, ?_⟩, rfl⟩⟩
    · show e = q + (b1 + bc + bo) * (groups l).length + _
      rw [List.length_map, tot_map, tot_groups, he, Nat.mul_comm (groups l).length]
    · simp
    · simp

open Column in
/-- Every lookup in a column table that is set up well. -/
theorem good_lookups {m : Mem} {a e : Nat} {l : List (Nat × Nat)} {L : Lay} (h1 : TabAt m L ((groups l).map grpI))
    (h2 : Good L ((groups l).map grpI) (setup m a e) (toI l)) (hs : SortedS (toI l)) (v1 v2 : Option Int) :
    Yields (Tab.itr m) (Strat.openTab m a e .column v1 v2) (matching (toI l) v1 v2) := by
  have hgs := groups_gsorted hs
  have e0 : matching (toI l) none v2 = toI l := by
    rw [matching, List.filter_eq_self]; simp
  have e1 : ∀ c, matching (toI l) (some c) none = (toI l).filter fun p => p.1 = c := by
    intro c; unfold matching; congr 1; funext p; simp [eq_comm]
  have e2 : ∀ c d, matching (toI l) (some c) (some d)
      = if (c, d) ∈ toI l then [(c, d)] else [] := by
    intro c d
    rw [← filter_eq_singleton hs]
    unfold matching; congr 1; funext p
    simp [Prod.ext_iff, eq_comm]
  match v1, v2 with
  | none, _ => rw [e0]; exact yields_column (h2.yields h1)
  | some c1, none =>
    rw [e1]
    refine yields_column ?_
    rw [← ungroup_groups] at h2 ⊢
    rcases setupC1_spec h1 hgs h2 c1 with ⟨i, hi, q1, q2, _⟩ | ⟨q1, q2, _⟩
    · have := (drvC1 h1 hgs i hi).yields (.inr ⟨0, q2, rfl⟩)
      subst q1
      rw [filter_fst_found hgs hi rfl]
      exact this
    · rw [filter_fst_none q1]; exact yields_nil.2 q2
  | some c1, some c2 =>
    rw [e2]
    refine yields_column ?_
    rw [← ungroup_groups] at h2 ⊢
    rcases setupC12_spec h1 hgs h2 c1 c2 with ⟨q1, q2, _⟩ | ⟨q1, q2, _⟩
    · rw [if_pos q1]
      obtain ⟨g, hg, _, hv⟩ := mem_ungroup.1 q1
      exact (drvC12 L m h1.hb2 (B_pos h1) (c1, c2) (hgs.nonneg g hg _ hv)).yields (.inr ⟨q2, rfl⟩)
    · rw [if_neg q1]; exact yields_nil.2 q2

theorem rdInt_enc {m : Mem} {a n : Nat} (hn : n < 2 ^ 32) (h : Placed m a (encBE 4 n)) : (rdInt m a).toNat = n := by
  have := rdN_of_lt (w := 4) (by omega) h
  have e : (rdInt m a) = (n : Int) := by
    rw [← this]
    simp only [rdInt, rdN, ub, show a + 1 + 1 = a + 2 from rfl, show a + 2 + 1 = a + 3 from rfl]
    omega
  rw [e]; simp

theorem colEncode_holds {m : Mem} {base : Nat} {t t' : List Nat} (h : Words t) (h' : Words t') (hsw : Swapped t t') {c : DCoord} {a : Nat}
    (hc : (base : Int) + c.file * 2 ^ 16 + c.mark = a) (hst : c.strat = colStrat) (hlen : t.length < 2 ^ 28)
    (hbytes : (colEncode (nbytes (maxHi t)) (nbytes (maxHi t')) t).length < 2 ^ 32)
    (hp : Placed m a (colEncode (nbytes (maxHi t)) (nbytes (maxHi t')) t)) :
    DHolds m base c (toI (rows t)) := by
  have c1 := lt_pow_nbytes (maxHi t)
  have c2 := lt_pow_nbytes (maxHi t')
  have l1 := nbytes_le (k := 4) (by omega) (show maxHi t < 256 ^ 4 by have := maxHi_lt h; omega)
  have l2 := nbytes_le (k := 4) (by omega) (show maxHi t' < 256 ^ 4 by have := maxHi_lt h'; omega)
  have p1 := nbytes_pos (maxHi t)
  have p2 := nbytes_pos (maxHi t')
  generalize hg1 : nbytes (maxHi t) = b1 at *
  generalize hg2 : nbytes (maxHi t') = b2 at *
  have hcnt := lt_pow_nbytes t.length
  have hcl := nbytes_le (k := 4) (by omega) (show t.length < 256 ^ 4 by omega)
  generalize hg3 : nbytes t.length = bc at *
  have hrl := rows_length t
  have hgl := groups_length_le (rows t)
  have hw : Column.Widths (groups (rows t)) b1 b2 bc bc := by
    refine ⟨fun g hg => ?_, fun g hg v hv => ?_, fun g hg => ?_, ?_, p1, p2, by omega, by omega, by omega, by omega⟩
    · obtain ⟨v, hv⟩ := List.exists_mem_of_ne_nil _ (groups_ne hg)
      obtain ⟨x, hx, e⟩ := (mem_rows h).1 (groups_mem hg hv)
      have := congrArg Prod.fst e
      simp only at this
      rw [this]
      exact Nat.lt_of_le_of_lt (le_maxHi h hx) c1
    · obtain ⟨x, hx, e⟩ := (mem_rows h).1 (groups_mem hg hv)
      have := congrArg Prod.snd e
      simp only at this
      rw [this]
      exact Nat.lt_of_le_of_lt (hsw.lo_le h' hx) c2
    · have h1 := groups_len_le hg
      have h2 := List.length_filter_le (fun q => decide (q.1 = g.1)) (rows t)
      exact Nat.lt_of_le_of_lt (by omega) hcnt
    · rw [Column.tot_groups]; exact Nat.lt_of_le_of_lt hrl hcnt
  obtain ⟨k1, k2⟩ := colBlocks b1 bc bc (rows_ne h)
  unfold colEncode at hp hbytes
  simp only [hg3, k1, k2] at hp hbytes
  generalize hB : Column.blocks b1 bc bc 0 (groups (rows t)) = B at *
  simp only [List.cons_append, List.nil_append, placed_cons, placed_append, encBE_length] at hp
  obtain ⟨h0, h1, h2, ⟨⟨h3, h4⟩, h5⟩, h6⟩ := hp
  have hr := rdInt_enc (by simp only [List.length_append, encBE_length] at hbytes; simp only [List.length_append, List.length_cons, List.length_nil] at hbytes ⊢; omega) h0
  simp only [encVFixed_length, List.length_append] at h4 h5 h6
  have d1 : decVMem m 10 (a + 4 + 1 + 1) = ((groups (rows t)).length, a + 4 + 1 + 1 + 4) :=
    decVMem_fixed (fuel := 10) (w := 3) (by omega) h3 (by omega)
  have d2 := decVMem_encV m _ _ h4 10 (encV_length_le (by omega) (Nat.lt_of_lt_of_le hlen (by decide)))
  have hv : ((rows t).flatMap fun p => encBE b2 p.2).length = (rows t).length * b2 := by
    rw [show ((rows t).flatMap fun p => encBE b2 p.2) = ((rows t).map (·.2)).flatMap (encBE b2) by rw [List.flatMap_map],
      Column.flatMap_encBE_length, List.length_map]
  refine ⟨by simpa [toI] using rows_ne h, rows_sorted h, toI_nonneg, fun v1 v2 => ?_⟩
  have hd : decode c.strat = some .column := by rw [hst]; decide
  rw [openTab_column hd, hc, Int.toNat_natCast, hr]
  obtain ⟨L, g1, g2⟩ := tabAt_of_parts (a := a + 4) (q := a + 4 + 1 + 1 + 4 + (encV t.length).length)
    (e := a + (4 + ([UInt8.ofNat (b1 * 8 + b2 % 8), UInt8.ofNat (bc * 8 + bc % 8)] ++ encVFixed 4 (groups (rows t)).length ++ encV t.length ++ B ++
      (rows t).flatMap fun p => encBE b2 p.2).length)) hw h1 h2 d1 d2 (by rw [hB]; simpa only [Nat.add_assoc] using h5) (by rw [hB]; simpa only [Nat.add_assoc] using h6)
      (by rw [hB]; simp only [List.length_append, List.length_cons, List.length_nil, encVFixed_length, hv]; omega)
  exact good_lookups g1 g2 (rows_sorted h) v1 v2

end Trident.Diff3
