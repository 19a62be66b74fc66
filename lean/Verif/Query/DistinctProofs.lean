import Verif.Query.Distinct
import Verif.Query.KBProofs
/-! Helper proofs for queries that ignore the second column (no property statements here). -/
namespace Trident
open Strat

theorem matching_first (ps : List Pair) (c : Int) : matching ps (some c) none = ps.filter fun p => p.1 = c := by
  unfold matching; congr 1; funext p; simp [eq_comm]

theorem isDistinct_one {ps : List Pair} {v : Int} (hne : ps ≠ []) (h : ∀ p ∈ ps, p.1 = v) : IsDistinct ps [(v, (ps.length : Int))] := by
  refine ⟨by simp, fun x => ?_, fun q hq => ?_⟩
  · constructor
    · intro hx
      simp only [List.map_cons, List.map_nil, List.mem_singleton] at hx
      obtain ⟨p, hp⟩ := List.exists_mem_of_ne_nil _ hne
      exact List.mem_map.2 ⟨p, hp, by rw [h p hp, hx]⟩
    · intro hx
      obtain ⟨p, hp, rfl⟩ := List.mem_map.1 hx
      simp [h p hp]
  · simp only [List.mem_singleton] at hq
    subst hq
    rw [List.filter_eq_self.2]
    intro p hp
    simpa using h p hp

theorem IsDistinct.of_perm {ps qs : List Pair} {out : List (Int × Int)} (h : IsDistinct ps out) (hp : ps.Perm qs) : IsDistinct qs out :=
  ⟨h.1, fun v => by rw [h.2.1, (hp.map _).mem_iff], fun q hq => by rw [h.2.2 q hq, (hp.filter _).length_eq]⟩

theorem isDistinct_nil : IsDistinct [] [] := by simp [IsDistinct]

/-! ## Tables -/

theorem yieldsD_row {m w1 w2 s l} (h : Yields (Row.itrD w1 w2 m) s l) : Yields (Tab.itrD m) (.row w1 w2 s) l :=
  yields_map (Tab.row w1 w2) (fun _ => rfl) (fun _ => rfl) (fun _ => rfl) h

theorem yieldsD_cluster {m w1 w2 wc s l} (h : Yields (Cluster.itrD w1 w2 wc m) s l) : Yields (Tab.itrD m) (.cluster w1 w2 wc s) l :=
  yields_map (Tab.cluster w1 w2 wc) (fun _ => rfl) (fun _ => rfl) (fun _ => rfl) h

theorem yieldsD_column {m s l} (h : Yields (Column.itrD m) s l) : Yields (Tab.itrD m) (.column s) l :=
  yields_map Tab.column (fun _ => rfl) (fun _ => rfl) (fun _ => rfl) h

/-- The part of the rows in a range. -/
theorem Row.rowsAt_slice {w1 w2 m a ps} (h : Row.RowsAt w1 w2 m a ps) (i j : Nat) (hj : j ≤ ps.length) :
    Row.RowsAt w1 w2 m (a + i * Row.blk w1 w2) ((ps.drop i).take (j - i)) := by
  intro k hk
  rw [List.length_take, List.length_drop] at hk
  have := h (i + k) (by omega)
  rw [List.getElem_take, List.getElem_drop, show a + i * Row.blk w1 w2 + k * Row.blk w1 w2 = a + (i + k) * Row.blk w1 w2 by rw [Nat.add_mul]; omega]
  exact this

theorem row_first {w1 w2 : Width} {l : List (Nat × Nat)} {m : Mem} {a : Nat} (hfit : Row.Fits w1 w2 l) (hs : Sorted (toI l)) (hne : l ≠ [])
    (h : Placed m a (Row.encode w1 w2 l)) (c1 : Int) :
    ∃ out, IsDistinct ((toI l).filter fun p => p.1 = c1) out ∧
      Yields (Row.itrD w1 w2 m) (Row.ignoreSecondColumn w1 w2 m (Row.setupC1 w1 w2 m c1 a (a + (Row.encode w1 w2 l).length))) out := by
  have hr := Row.rowsAt_of_placed hfit h
  obtain ⟨i, j, h1, h2, h3, h4⟩ := Row.setupC1_range hr hs (by simpa [toI] using hne) c1
  rw [Row.encode_length, ← toI_length l, h3]
  rw [List.drop_take] at h4
  have hsl := Row.rowsAt_slice hr i j h2
  have hlen : (((toI l).drop i).take (j - i)).length = j - i := by rw [List.length_take, List.length_drop]; omega
  refine ⟨_, isDistinct_runs ?_, ?_⟩
  · exact (hs.sublist List.filter_sublist).imp fun h => by unfold Pair.le at h; omega
  · rw [h4]
    have := Row.yieldsD hsl (Row.ignoreSecondColumn w1 w2 m (Row.setup (a + i * Row.blk w1 w2) (a + j * Row.blk w1 w2))) 0 (by omega)
      (by simp [Row.ignoreSecondColumn, Row.setup]) (by simp [Row.ignoreSecondColumn, Row.setup])
      (by
        simp only [Row.ignoreSecondColumn, Row.setup, hlen]
        have : i * Row.blk w1 w2 + (j - i) * Row.blk w1 w2 = j * Row.blk w1 w2 := by rw [← Nat.add_mul]; congr 1; omega
        simp; omega)
    simpa using this

theorem cluster_first {w1 w2 wc : Width} {l : List (Nat × Nat)} {m : Mem} {a : Nat} (hfit : Cluster.Fits w1 w2 wc l) (hs : Sorted (toI l))
    (h : Placed m a (Cluster.encode w1 w2 wc l)) (c1 : Int) :
    ∃ out, IsDistinct ((toI l).filter fun p => p.1 = c1) out ∧
      Yields (Cluster.itrD w1 w2 wc m) (Cluster.ignoreSecondColumn w2 (Cluster.setupC1 w1 w2 wc m c1 a (a + (Cluster.encode w1 w2 wc l).length))) out := by
  have hg := Cluster.gAt_encode hfit h
  obtain ⟨q, gs', e, h1, h2, h3, h4⟩ := Cluster.setupC1_spec hg (groups_keys hs) c1
  rw [Cluster.encode_length, e]
  rw [ungroup_groups] at h2
  rw [← h2]
  have hp : Cluster.PosD w1 w2 wc m (Cluster.ignoreSecondColumn w2 (Cluster.setup q (q + Cluster.gszs w1 w2 wc gs'))) gs' := by
    constructor <;> simp [Cluster.ignoreSecondColumn, Cluster.setup, h1]
  refine ⟨_, isDistinct_heads ?_ ?_, hp.yields⟩
  · match gs', h4 with
    | [], _ => exact .nil
    | [g], _ => simp
    | _ :: _ :: _, h4 => simp at h4
  · intro g hx
    obtain ⟨x, hx', rfl⟩ := List.mem_map.1 (h3 g hx)
    simpa [grpI] using groups_ne hx'

theorem column_pos1 {m : Mem} {c1 : Int} {a e : Nat} (h : Column.hasNext (Column.setupC1 m c1 a e) = true) :
    (Column.setupC1 m c1 a e).pos1 = (Column.setupC1 m c1 a e).startpos2 - (Column.setupC1 m c1 a e).blk := by
  have hfail : ∀ s, Column.hasNext (Column.fail s) = false := by intro s; simp [Column.hasNext, Column.fail]
  unfold Column.setupC1 at h ⊢
  simp only at h ⊢
  split at h
  · rename_i h0
    rw [if_pos h0]
    split at h
    · rename_i h1
      rw [if_pos h1]
      split at h
      · rename_i h2
        rw [if_pos h2]
        rfl
      · rw [hfail] at h; cases h
    · rw [hfail] at h; cases h
  · rename_i h0
    exact absurd h h0

theorem column_first {thr : Nat} {l : List (Nat × Nat)} {m : Mem} {a : Nat} (hfit : Column.Fits l) (hs : SortedS (toI l))
    (h : Placed m a (Column.encode thr l)) (c1 : Int) :
    ∃ out, IsDistinct ((toI l).filter fun p => p.1 = c1) out ∧
      Yields (Column.itrD m) (Column.ignoreSecondColumn (Column.setupC1 m c1 a (a + (Column.encode thr l).length))) out := by
  obtain ⟨L, h1, h2, -⟩ := Column.setup_good hfit h
  have hgs := groups_gsorted hs
  rw [← ungroup_groups]
  rcases Column.setupC1_spec h1 hgs h2 c1 with ⟨i, hi, q1, q2, -, -⟩ | ⟨q1, q2, q3⟩
  · have hfil : (ungroup ((groups l).map grpI)).filter (fun p => p.1 = c1) = ungroup [((groups l).map grpI)[i]] := by
      rw [filter_ungroup_fst hgs.keys]
      have : ((groups l).map grpI).find? (fun g => g.1 = c1) = some ((groups l).map grpI)[i] := by
        rw [List.find?_eq_some_iff_getElem]
        refine ⟨by simpa using q1, i, hi, rfl, fun j hj => ?_⟩
        have := List.pairwise_iff_getElem.1 hgs.keys j i (by omega) hi hj
        simp only [q1] at this
        simp only [decide_eq_true_eq, Bool.not_eq_eq_eq_not, Bool.not_true, decide_eq_false_iff_not]
        omega
      rw [this, ← q1]
      simp only [Option.map_some, Option.getD_some, ungroup, List.flatMap_cons, List.flatMap_nil, List.append_nil]
    refine ⟨heads [((groups l).map grpI)[i]], ?_, ?_⟩
    · rw [hfil]
      exact isDistinct_heads (by simp) (by intro g hg; simp only [List.mem_singleton] at hg; subst hg; exact h1.ne _ (List.getElem_mem hi))
    · have hB := Column.B_pos h1
      have hne : ((groups l).map grpI)[i].2 ≠ [] := h1.ne _ (List.getElem_mem hi)
      have hb0 := column_pos1 ((q2.hasNext h1).2 (List.length_pos_iff.2 hne))
      generalize Column.setupC1 m c1 a (a + (Column.encode thr l).length) = s at q2 hb0
      have hblk : s.blk = L.B := by simp [Column.St.blk, Column.Lay.B, q2.b1, q2.bc, q2.bo]
      have hp : s.pos1 = L.p1 + i * L.B := by
        rw [hb0, q2.sp2, hblk, Nat.add_mul i 1]; omega
      obtain ⟨sc, e⟩ : ∃ sc, Column.ignoreSecondColumn s = { s with ign := true, scanned := sc } := by
        unfold Column.ignoreSecondColumn; split <;> exact ⟨_, rfl⟩
      have e1 : L.p1 + i * L.B + L.B = L.p1 + (i + 1) * L.B := by rw [Nat.add_mul i 1]; omega
      rw [heads, List.map_cons, List.map_nil, yields_cons, yields_nil, e]
      refine ⟨?_, ?_, ?_⟩
      · simp only [Column.itrD, Column.hasNext, hp, q2.sp2, Bool.or_eq_true, decide_eq_true_eq]; omega
      · simp only [Column.itrD, Column.next, Bool.true_or, if_true, Column.readBlock, q2.b1, q2.bc, hp, h1.key i hi, h1.cnt i hi, Column.getCount, Int.toNat_natCast]
      · simp only [Column.itrD, Column.next, Bool.true_or, if_true, Column.readBlock, Column.hasNext, hp, q2.sp2, Column.St.blk, q2.b1, q2.bc, q2.bo]
        have : L.b1 + L.bc + L.bo = L.B := rfl
        rw [this, e1]; simp
  · refine ⟨[], ?_, ?_⟩
    · rw [List.filter_eq_nil_iff.2]
      · exact isDistinct_nil
      · intro p hp
        obtain ⟨g, hg, e, -⟩ := mem_ungroup.1 hp
        have := q1 g hg
        simp; omega
    · rw [yields_nil]
      simp only [Column.itrD, Column.ignoreSecondColumn]
      simp only [Column.hasNext, Bool.or_eq_false_iff, decide_eq_false_iff_not] at q2 ⊢
      split <;> exact ⟨q2.1, by simp⟩

/-- A table of any layout with the second column ignored. -/
theorem tab_distinct (L : Layout) (thr : Nat) (l : List (Nat × Nat)) (m : Mem) (a : Nat) (hr : Readable L l) (hs : SortedS (toI l)) (hne : l ≠ [])
    (h : Placed m a (L.encode thr l)) (c1 : Option Int) :
    ∃ out, IsDistinct (matching (toI l) c1 none) out ∧
      Yields (Tab.itrD m) ((openTab m a (a + (L.encode thr l).length) L c1 none).ignore m) out := by
  cases c1 with
  | none =>
    rw [matching_none]
    match L with
    | .row w1 w2 => obtain ⟨o, h1, h2⟩ := C15_row_distinct w1 w2 l m a hr hs.sorted h; exact ⟨o, h1, yieldsD_row h2⟩
    | .cluster w1 w2 wc => obtain ⟨o, h1, h2, -⟩ := C15_cluster_distinct w1 w2 wc l m a hr hs.sorted h; exact ⟨o, h1, yieldsD_cluster h2⟩
    | .column => obtain ⟨o, h1, h2, -⟩ := C15_column_distinct thr l m a hr hs.sorted h; exact ⟨o, h1, yieldsD_column h2⟩
  | some c =>
    rw [matching_first]
    match L with
    | .row w1 w2 => obtain ⟨o, h1, h2⟩ := row_first hr hs.sorted hne h c; exact ⟨o, h1, yieldsD_row h2⟩
    | .cluster w1 w2 wc => obtain ⟨o, h1, h2⟩ := cluster_first hr hs.sorted h c; exact ⟨o, h1, yieldsD_cluster h2⟩
    | .column => obtain ⟨o, h1, h2⟩ := column_first hr hs h c; exact ⟨o, h1, yieldsD_column h2⟩

variable {kb : KB} {g : List Triple} {E : Env}

theorem KB.Holds.distinct {e ps} (h : kb.Holds e ps) (v1 : Int) :
    ∃ out, IsDistinct (matching ps (optOf v1) none) out ∧ (kb.openTabD e v1 (-1)).Returns out := by
  obtain ⟨L, thr, l, h1, -, h2, h3, h4, h5, h6, rfl⟩ := h
  unfold KB.openTabD
  rw [h1, h6]
  exact tab_distinct L thr l kb.mem e.start h2 h4 h3 h5 _

/-! ## Rebuilt tables -/

/-- All pairs have the fixed first value. -/
theorem arr_first {l : List (Nat × Nat)} {c : Nat} (hs : Sorted (toI l)) (hne : l ≠ []) (hc : ∀ p ∈ l, p.1 = c) :
    Yields (Arr.itrD l) (Arr.ignoreSecondColumn (Arr.init l c (-1))) [((c : Int), (l.length : Int))] := by
  have hl : 0 < l.length := List.length_pos_iff.2 hne
  have hget : ∀ i, i < l.length → (Arr.get l i).1 = c := by
    intro i hi
    simp only [Arr.get, hi, List.getElem?_eq_getElem, Option.getD_some]
    exact hc _ (List.getElem_mem hi)
  obtain ⟨f, g1, g2, g3, g4⟩ := Arr.binarySearch_full hs c 0 (by omega)
  have hf : Arr.binarySearch l c l.length 0 ((l.length : Int) - 1) = 0 := by
    have hf0 : f = 0 := by
      apply Classical.byContradiction
      intro h
      have := g3 0 (by omega) (by omega)
      have := hget 0 hl
      omega
    subst hf0
    rcases g4 with ⟨-, h1, h2⟩ | ⟨-, h1, -⟩ | ⟨h1, -⟩
    · exact h2
    · have := hget 0 hl; omega
    · omega
  have hs0 : Arr.ignoreSecondColumn (Arr.init l c (-1)) = ⟨0, -1, -1, c, -1, true, true, true, 0, 0⟩ := by
    unfold Arr.init Arr.ignoreSecondColumn
    rw [if_pos (by omega)]
    simp only [Int.toNat_natCast, hf]
    simp
  obtain ⟨h1, h2, h3, h4, h5⟩ := Arr.countLoop_spec (l := l) 1 1 (by omega) (by omega)
  generalize hr : Arr.countLoop l 1 1 = r at *
  have hend : r.1 = l.length := by
    apply Classical.byContradiction
    intro h
    exact h5 (by omega) (by rw [hget _ (by omega), hget _ (by omega)])
  have hstep : (Arr.itrD l).next ((Arr.itrD l).hasNext (Arr.ignoreSecondColumn (Arr.init l c (-1)))).2 =
      ⟨l.length, c, (Arr.get l 0).2, c, -1, false, true, true, l.length, 0⟩ := by
    rw [hs0]
    simp only [Arr.itrD, Arr.hasNext, if_true, Arr.next, Arr.getCount, Nat.zero_add, hr, hend, hget 0 hl]
    simp; omega
  rw [yields_cons, yields_nil, hstep]
  refine ⟨by rw [hs0]; rfl, rfl, ?_⟩
  simp only [Arr.itrD, Arr.hasNext, Bool.false_eq_true, if_false, if_true]
  rw [Arr.skipEq_stay (by omega), if_neg (by omega)]
  simp

theorem onReverseD_returns (sort) (hsort : SortsPairs sort) (old : Obj) (ps : List Pair) (hold : old.Returns ps)
    (hpos : ∀ p ∈ ps, 0 ≤ p.1 ∧ 0 ≤ p.2) (fuel : Nat) (hf : ps.length < fuel) (c1 : Option Nat) :
    ∃ out, (Obj.onReverseD sort fuel old (argOf c1) (-1)).Returns out ∧ IsDistinct (matching (ps.map fun p => (p.2, p.1)) (c1.map Int.ofNat) none) out := by
  have hdr : drain old.I fuel old.s = ps := drain_eq hold hf
  have hrev := toI_reversed hpos (argOf c1)
  rw [matching_swap] at hrev
  unfold Obj.onReverseD
  rw [hdr]
  simp only
  by_cases hl : (reversed (argOf c1) ps).length > 0
  · rw [if_pos hl]
    obtain ⟨hp, hso⟩ := hsort (reversed (argOf c1) ps)
    have hs := toI_sorted hso
    have hne : sort (reversed (argOf c1) ps) ≠ [] := by
      intro e; rw [e] at hp; have := hp.length_eq; simp at this; omega
    have hpt : (toI (sort (reversed (argOf c1) ps))).Perm
        (matching (ps.map fun p => (p.2, p.1)) (c1.map Int.ofNat) none) := by
      rw [← hrev]; exact hp.map _
    generalize hls : sort (reversed (argOf c1) ps) = ls at *
    have key : ∃ out, (Obj.arrayD ls (argOf c1) (-1)).Returns out ∧ IsDistinct (toI ls) out := by
      cases c1 with
      | none => exact C15_array ls hs hne
      | some c =>
        have hall : ∀ p ∈ ls, p.1 = c := by
          intro p hp'
          have : ((p.1 : Int), (p.2 : Int)) ∈ toI ls := List.mem_map.2 ⟨p, hp', rfl⟩
          have := hpt.mem_iff.1 this
          simp [matching] at this
          omega
        refine ⟨_, arr_first hs hne hall, ?_⟩
        rw [← toI_length ls]
        refine isDistinct_one (by simpa [toI] using hne) fun p hp => ?_
        obtain ⟨q, hq, rfl⟩ := List.mem_map.1 hp
        simp [hall q hq]
    obtain ⟨out, k1, k2⟩ := key
    exact ⟨out, k1, IsDistinct.of_perm k2 hpt⟩
  · rw [if_neg hl]
    have e : matching (ps.map fun p => (p.2, p.1)) (c1.map Int.ofNat) none = [] := by
      rw [← hrev, List.eq_nil_of_length_eq_zero (l := reversed (argOf c1) ps) (by omega)]
      rfl
    rw [e]
    exact ⟨[], .done rfl, isDistinct_nil⟩

theorem IsDistinct.mem_iff {ps : List Pair} {out : List (Int × Int)} (h : IsDistinct ps out) {v c : Int} :
    (v, c) ∈ out ↔ c = ((ps.filter fun p => p.1 = v).length : Int) ∧ 0 < c := by
  constructor
  · intro hm
    have h1 : c = ((ps.filter fun p => p.1 = v).length : Int) := h.2.2 _ hm
    refine ⟨h1, ?_⟩
    obtain ⟨p, hp, e⟩ := List.mem_map.1 ((h.2.1 v).1 (List.mem_map.2 ⟨_, hm, rfl⟩))
    have : 0 < (ps.filter fun p => p.1 = v).length := List.length_pos_of_mem (List.mem_filter.2 ⟨hp, by simpa using e⟩)
    rw [h1]
    exact Int.natCast_pos.2 this
  · rintro ⟨h1, h2⟩
    have : 0 < (ps.filter fun p => p.1 = v).length := by omega
    obtain ⟨p, hp⟩ := List.exists_mem_of_length_pos this
    obtain ⟨hp, e⟩ := List.mem_filter.1 hp
    obtain ⟨q, hq, e'⟩ := List.mem_map.1 ((h.2.1 v).2 (List.mem_map.2 ⟨p, hp, by simpa using e⟩))
    have h3 := h.2.2 q hq
    rw [e', ← h1] at h3
    rw [show (v, c) = q from Prod.ext e'.symm h3.symm]
    exact hq

theorem Order.row_inj (d : Order) {t t' : Triple} (h : d.row t = d.row t') : t = t' := by
  cases t; cases t'; cases d <;> simp_all [Order.row, Order.key, Order.pair, Order.positions, Triple.at]

/-- The pairs of a key, counted from the triples. -/
theorem pairs_perm {ts : List Triple} (hn : ts.Nodup) (hm : ∀ t, t ∈ ts ↔ t ∈ g) {d : Order} {k : Int} {ps : List Pair} (hs : SortedS ps) (h : PairsOf g d k ps) :
    ps.Perm ((ts.filter fun t => d.key t = k).map d.pair) := by
  refine (List.perm_ext_iff_of_nodup ?_ ?_).2 fun p => ?_
  · exact hs.imp fun h e => by subst e; simp only [Pair.lt] at h; omega
  · rw [List.Nodup, List.pairwise_map]
    refine (hn.filter _).imp_of_mem fun ha hb hne e => hne ?_
    have h1 := (List.mem_filter.1 ha).2
    have h2 := (List.mem_filter.1 hb).2
    simp only [decide_eq_true_eq] at h1 h2
    exact d.row_inj (Prod.ext (by rw [Order.row, Order.row]; exact h1.trans h2.symm) e)
  · rw [h p, List.mem_map]
    constructor
    · rintro ⟨t, ht, e1, e2⟩
      exact ⟨t, List.mem_filter.2 ⟨(hm t).2 ht, by simpa using e1⟩, e2⟩
    · rintro ⟨t, ht, e⟩
      obtain ⟨h1, h2⟩ := List.mem_filter.1 ht
      exact ⟨t, (hm t).1 h1, by simpa using h2, e⟩

/-- `getD` on a key with coordinates. -/
theorem Loaded.getD_returns (h : Loaded kb g) (hE : SortsPairs E.sortP) (hf : g.length < E.fuel) (d : Order)
    (hpres : kb.present d.idx = true ∨ (d.idx ≥ 3 ∧ kb.present (d.idx - 3) = true))
    {k cs} (hk : kb.coords k = some cs) (c1 : Option Int) (h1 : ∀ x ∈ c1, 0 ≤ x) :
    ∃ ps out, (kb.getD E d.idx cs (argOfPos c1) (-1)).Returns out ∧ SortedS ps ∧ PairsOf g d k ps ∧ IsDistinct (matching ps c1 none) out := by
  unfold KB.getD
  cases hcs : cs d.idx with
  | some e =>
    obtain ⟨ps, g1, g2⟩ := h.tables d k cs e hk hcs
    obtain ⟨out, o1, o2⟩ := g1.distinct (argOfPos c1)
    rw [optOf_argOfPos h1] at o1
    exact ⟨ps, out, o2, g1.sorted, g2, o1⟩
  | none =>
    simp only
    by_cases hd : d.idx ≥ 3
    · rw [if_pos hd]
      obtain ⟨d', e1, e2, e3⟩ := d.exists_partner hd
      cases hcs' : cs (d.idx - 3) with
      | some e =>
        obtain ⟨ps, g1, g2⟩ := h.tables d' k cs e hk (by rw [e1]; exact hcs')
        obtain ⟨n1, rfl, a1⟩ := natOpt h1
        have hret := g1.returns (-1) (-1)
        rw [show optOf (-1) = none from rfl, matching_none] at hret
        have hlen := pairsOf_length g2 g1.sorted
        obtain ⟨out, o1, o2⟩ := onReverseD_returns E.sortP hE _ ps hret g1.nonneg E.fuel (by omega) n1
        have hnd : ps.Nodup := g1.sorted.imp fun h e => by subst e; simp only [Pair.lt] at h; omega
        obtain ⟨qs, q1, q2⟩ := exists_sortedS (ps.map fun p => (p.2, p.1))
        have hperm : (ps.map fun p => (p.2, p.1)).Perm qs := by
          refine (List.perm_ext_iff_of_nodup ?_ ?_).2 fun p => (q2 p).symm
          · refine List.pairwise_map.2 (hnd.imp fun {a b} hab e => hab ?_)
            rw [Prod.mk.injEq] at e
            exact Prod.ext e.2 e.1
          · exact q1.imp fun h e => by subst e; simp only [Pair.lt] at h; omega
        refine ⟨qs, out, ?_, q1, fun p => ?_, IsDistinct.of_perm o2 (hperm.filter _)⟩
        · simp only [a1]; exact o1
        · rw [q2, g2.swap e2 e3 p]
      | none =>
        refine ⟨[], [], .done rfl, .nil, fun p => ⟨fun h => absurd h List.not_mem_nil, ?_⟩, isDistinct_nil⟩
        rintro ⟨t, ht, hkt, -⟩
        have hp3 : kb.present (d.idx - 3) = true := by
          rcases hpres with hp | hp
          · exact h.partner _ hd hp
          · exact hp.2
        have hlt : d.idx - 3 < 3 := by cases d <;> simp [Order.idx]
        obtain ⟨cs', e, q1, q2⟩ := h.complete d' (by rw [e1]; exact hlt) (by rw [e1]; exact hp3) t ht
        rw [← e2, hkt, hk] at q1
        obtain rfl := Option.some.inj q1
        rw [e1, hcs'] at q2
        simp at q2
    · rw [if_neg hd]
      refine ⟨[], [], .done rfl, .nil, fun p => ⟨fun h => absurd h List.not_mem_nil, ?_⟩, isDistinct_nil⟩
      rintro ⟨t, ht, hkt, -⟩
      obtain ⟨cs', e, q1, q2⟩ := h.complete d (by omega) (by
        rcases hpres with hp | hp
        · exact hp
        · exact absurd hp.1 hd) t ht
      rw [hkt, hk] at q1
      obtain rfl := Option.some.inj q1
      rw [hcs] at q2
      simp at q2

/-! ## The scan -/
namespace Scan

/-- Opening `c`, ignoring the second column and reading it gives `ps`, which is not empty. -/
def OpensD (kb : KB) (c : Src) (ps : List Pair) : Prop := Yields (Src.itrD kb.mem) (c.ignore kb.mem) ps ∧ ps ≠ []

theorem yieldsD_tab {m : Mem} {t : Tab} {l} (h : Yields (Tab.itrD m) t l) : Yields (Src.itrD m) (.tab t) l := by
  induction h with
  | done h => exact .done h
  | step h1 _ ih => exact .step (I := Src.itrD m) (s := .tab _) h1 ih

theorem yieldsD_arr {m : Mem} {a : List (Nat × Nat)} {s : Arr.St} {l} (h : Yields (Arr.itrD a) s l) :
    Yields (Src.itrD m) (.arr a s) l := by
  induction h with
  | done h => exact .done h
  | step h1 _ ih => exact .step (I := Src.itrD m) (s := .arr a _) h1 ih

theorem runs_ne_nil {ps : List Pair} (h : ps ≠ []) : runs ps ≠ [] := by
  cases ps with
  | nil => exact absurd rfl h
  | cons p l => obtain ⟨c, r, e⟩ := runs_head (p := p) (l := l); rw [e]; simp

theorem SortedS.fst {ps : List Pair} (h : SortedS ps) : ps.Pairwise fun a b => a.1 ≤ b.1 := h.imp fun h => by simp only [Pair.lt] at h; omega

theorem opensD_stored {e ps} (h : kb.Holds e ps) : OpensD kb (openStored kb e) (runs ps) := by
  refine ⟨?_, runs_ne_nil h.ne_nil⟩
  have hs := h.sorted
  obtain ⟨out, h1, h2⟩ := h.distinct (-1)
  rw [show optOf (-1) = none from rfl, matching_none] at h1
  rw [(isDistinct_runs (SortedS.fst hs)).unique h1]
  obtain ⟨L, thr, l, h3, -⟩ := h
  unfold KB.openTabD at h2
  unfold openStored
  rw [h3] at h2 ⊢
  exact yieldsD_tab h2

theorem opensD_reversed (hE : SortsPairs E.sortP) {e ps} (h : kb.Holds e ps) (hf : ps.length < E.fuel) {qs : List Pair} (hqs : SortedS qs)
    (hp : qs.Perm (ps.map fun p => (p.2, p.1))) : OpensD kb (openReversed kb E e) (runs qs) := by
  have hr := h.returns (-1) (-1)
  rw [show optOf (-1) = none from rfl, matching_none] at hr
  obtain ⟨out, o1, o2⟩ := onReverseD_returns E.sortP hE _ ps hr h.nonneg E.fuel hf none
  rw [Option.map_none, matching_none] at o2
  have hne : qs ≠ [] := by
    rintro rfl
    have := hp.length_eq
    simp only [List.length_nil, List.length_map] at this
    exact h.ne_nil (List.eq_nil_of_length_eq_zero this.symm)
  rw [← (IsDistinct.of_perm o2 hp.symm).unique (isDistinct_runs (SortedS.fst hqs))]
  have hd : drain (kb.openTab e (-1) (-1)).I E.fuel (kb.openTab e (-1) (-1)).s = ps := drain_eq hr hf
  have hne' : out ≠ [] := by
    rw [(IsDistinct.of_perm o2 hp.symm).unique (isDistinct_runs (SortedS.fst hqs))]
    exact runs_ne_nil hne
  refine ⟨?_, hne'⟩
  unfold Obj.onReverseD at o1
  simp only [argOf, hd] at o1
  unfold openReversed collect
  simp only [hd]
  by_cases hl : (reversed (-1) ps).length > 0
  · rw [if_pos hl] at o1
    exact yieldsD_arr o1
  · rw [if_neg hl] at o1
    cases o1 with
    | done _ => exact absurd rfl hne'
    | step h _ => simp [Obj.empty] at h

theorem yieldsD_cur {i1 i2 key rest} (hrest : ∀ hn, Yields (itrD kb E) ⟨i1, i2, none, false, hn, key⟩ rest) {c l}
    (h : Yields (Src.itrD kb.mem) c l) : ∀ hn, Yields (itrD kb E) ⟨i1, i2, some c, false, hn, key⟩
      (l.map (fun p => (key, p)) ++ rest) := by
  induction h with
  | @done c h =>
    intro hn
    refine yields_congr (s' := ⟨i1, i2, none, false, hn, key⟩) ?_ (hrest hn)
    show Scan.hasNextD kb ⟨i1, i2, some c, false, hn, key⟩ = Scan.hasNextD kb ⟨i1, i2, none, false, hn, key⟩
    simp only [hasNextD, h, Bool.false_eq_true, if_false]
  | @step c l h1 h2 ih =>
    intro hn
    have hh : hasNextD kb ⟨i1, i2, some c, false, hn, key⟩ =
        (true, ⟨i1, i2, some ((Src.itrD kb.mem).hasNext c).2, true, true, key⟩) := by
      simp only [hasNextD, h1, Bool.false_eq_true, if_false, if_true]
    have := ih true
    rw [List.map_cons, List.cons_append, yields_cons]
    change (hasNextD kb ⟨i1, i2, some c, false, hn, key⟩).1 = true ∧
      (itrD kb E).val (nextD kb E (hasNextD kb ⟨i1, i2, some c, false, hn, key⟩).2) = _ ∧
      Yields (itrD kb E) (nextD kb E (hasNextD kb ⟨i1, i2, some c, false, hn, key⟩).2) _
    rw [hh]
    exact ⟨rfl, rfl, this⟩

theorem yieldsD_open {i1 i2 key rest} (hrest : ∀ hn, Yields (itrD kb E) ⟨i1, i2, none, false, hn, key⟩ rest) {c ps}
    (h : OpensD kb c ps) {s : St} {s1 : St} (hh : hasNextD kb s = (true, s1))
    (hn : nextD kb E s1 = ⟨i1, i2, some (firstD kb c), false, s1.hn, key⟩) :
    Yields (itrD kb E) s (ps.map (fun p => (key, p)) ++ rest) := by
  obtain ⟨h1, h2⟩ := h
  cases h1 with
  | done _ => exact absurd rfl h2
  | @step _ l h3 h4 =>
    have := yieldsD_cur (E := E) hrest h4 s1.hn
    rw [List.map_cons, List.cons_append, yields_cons]
    change (hasNextD kb s).1 = true ∧ (itrD kb E).val (nextD kb E (hasNextD kb s).2) = _ ∧
      Yields (itrD kb E) (nextD kb E (hasNextD kb s).2) _
    rw [hh]
    dsimp only
    rw [hn]
    exact ⟨rfl, rfl, this⟩

theorem yieldsD_one {ps : Int → List Pair} {l : List (Int × Coord)}
    (h : ∀ e ∈ l, OpensD kb (openStored kb e.2) (ps e.1)) :
    ∀ c key hn, Yields (itrD kb E) ⟨some ⟨c, l⟩, none, none, false, hn, key⟩ (rows ps l) := by
  induction l with
  | nil => intro c key hn; exact .done rfl
  | cons e l ih =>
    intro c key hn
    rw [rows, List.flatMap_cons]
    refine yieldsD_open (i1 := some ⟨e, l⟩) (i2 := none) (fun hn => ih (fun x hx => h x (by simp [hx])) e e.1 hn)
      (h e (by simp)) (s1 := ⟨some ⟨e, l⟩, none, none, true, true, key⟩) rfl rfl

theorem yieldsD_two {ps : Int → List Pair} {l2 : List (Int × Coord)} :
    ∀ {l1 : List (Int × Coord)} {i1}, Inv i1 l1 l2 → (l1.map (·.1)).Pairwise (· < ·) → (l2.map (·.1)).Pairwise (· < ·) →
    (∀ e ∈ l1, e.1 ∈ l2.map (·.1)) → (∀ e ∈ l1, OpensD kb (openStored kb e.2) (ps e.1)) →
    (∀ e ∈ l2, e.1 ∉ l1.map (·.1) → OpensD kb (openReversed kb E e.2) (ps e.1)) →
    ∀ c key hn, Yields (itrD kb E) ⟨i1, some ⟨c, l2⟩, none, false, hn, key⟩ (rows ps l2) := by
  induction l2 with
  | nil => intros; exact .done rfl
  | cons e l2 ih =>
    intro l1 i1 hinv hs1 hs2 hsub h1 h2 c key hn
    rw [List.map_cons, List.pairwise_cons] at hs2
    rw [rows, List.flatMap_cons]
    -- the position of `itr1` after the key has moved
    have hmv : ∃ i1', hasNextD kb ⟨i1, some ⟨c, e :: l2⟩, none, false, hn, key⟩ =
        (true, ⟨i1', some ⟨e, l2⟩, none, true, true, key⟩) ∧
        ((i1' = none ∧ l1 = []) ∨ ∃ f r, i1' = some ⟨f, r⟩ ∧ l1 = f :: r) := by
      rcases hinv with ⟨rfl, rfl⟩ | ⟨f, r, rfl, rfl⟩ | ⟨f, rfl, hlt⟩
      · exact ⟨none, rfl, .inl ⟨rfl, rfl⟩⟩
      · refine ⟨some ⟨f, r⟩, ?_, .inr ⟨f, r, rfl, rfl⟩⟩
        have : ¬ f.1 < e.1 := by
          have := hsub f (by simp)
          rw [List.map_cons, List.mem_cons] at this
          rcases this with h | h
          · omega
          · have := hs2.1 _ h; omega
        simp only [hasNextD, moveKey, Bool.false_eq_true, if_false, if_neg this]
      · have hfe := hlt e (by simp)
        cases l1 with
        | nil => exact ⟨none, by simp only [hasNextD, moveKey, Bool.false_eq_true, if_false, if_pos hfe], .inl ⟨rfl, rfl⟩⟩
        | cons f' r' =>
          exact ⟨some ⟨f', r'⟩, by simp only [hasNextD, moveKey, Bool.false_eq_true, if_false, if_pos hfe],
            .inr ⟨f', r', rfl, rfl⟩⟩
    obtain ⟨i1', hh, hi⟩ := hmv
    rcases hi with ⟨rfl, rfl⟩ | ⟨f, r, rfl, rfl⟩
    · refine yieldsD_open (i1 := none) (i2 := some ⟨e, l2⟩) (fun hn => ?_) (h2 e (by simp) (by simp)) hh rfl
      exact ih (.inl ⟨rfl, rfl⟩) .nil hs2.2 (by simp) (by simp) (fun x hx => h2 x (by simp [hx])) e e.1 hn
    · rw [List.map_cons, List.pairwise_cons] at hs1
      by_cases hef : e.1 = f.1
      · have hsub' : ∀ x ∈ r, x.1 ∈ l2.map (·.1) := by
          intro x hx
          have := hsub x (by simp [hx])
          rw [List.map_cons, List.mem_cons] at this
          rcases this with h | h
          · have := hs1.1 x.1 (List.mem_map.2 ⟨x, hx, rfl⟩); omega
          · exact h
        have hop := h1 f (by simp)
        rw [hef]
        refine yieldsD_open (i1 := some ⟨f, r⟩) (i2 := some ⟨e, l2⟩) (fun hn => ?_) hop hh ?_
        · refine ih (l1 := r) (.inr (.inr ⟨f, rfl, fun x hx => ?_⟩)) hs1.2 hs2.2 hsub' (fun x hx => h1 x (by simp [hx])) ?_ e f.1 hn
          · rw [← hef]; exact hs2.1 _ (List.mem_map.2 ⟨x, hx, rfl⟩)
          · intro x hx hnx
            refine h2 x (by simp [hx]) ?_
            rw [List.map_cons, List.mem_cons]
            rintro (h | h)
            · have := hs2.1 _ (List.mem_map.2 ⟨x, hx, rfl⟩); omega
            · exact hnx h
        · simp only [nextD, ne_eq, hef, not_true_eq_false, if_false]
      · have hfe : f.1 ∈ l2.map (·.1) := by
          have := hsub f (by simp)
          rw [List.map_cons, List.mem_cons] at this
          exact this.resolve_left fun h => hef h.symm
        have hlt := hs2.1 _ hfe
        have hnot : e.1 ∉ (f :: r).map (·.1) := by
          rw [List.map_cons, List.mem_cons]
          rintro (h | h)
          · exact hef h
          · have := hs1.1 _ h; omega
        refine yieldsD_open (i1 := some ⟨f, r⟩) (i2 := some ⟨e, l2⟩) (fun hn => ?_) (h2 e (by simp) hnot) hh ?_
        · refine ih (l1 := f :: r) (.inr (.inl ⟨f, r, rfl, rfl⟩)) (by rw [List.map_cons, List.pairwise_cons]; exact hs1) hs2.2 ?_ h1
            (fun x hx => h2 x (by simp [hx])) e e.1 hn
          intro x hx
          rcases List.mem_cons.1 hx with rfl | hx
          · exact hfe
          · have := hsub x (by simp [hx])
            rw [List.map_cons, List.mem_cons] at this
            rcases this with h | h
            · have := hs1.1 _ (List.mem_map.2 ⟨x, hx, rfl⟩); omega
            · exact h
        · simp only [nextD, ne_eq, hef, not_false_eq_true, if_true]

end Scan

/-- Rows in order of their first two columns, no two alike. -/
def Row3.lt2 (a b : Row3) : Prop := a.1 < b.1 ∨ (a.1 = b.1 ∧ a.2.1 < b.2.1)

namespace Scan

theorem rows_sorted2 {ps : Int → List Pair} {l : List (Int × Coord)} (hl : (l.map (·.1)).Pairwise (· < ·))
    (hp : ∀ e ∈ l, (ps e.1).Pairwise fun a b => a.1 < b.1) : (rows ps l).Pairwise Row3.lt2 := by
  induction l with
  | nil => exact .nil
  | cons e l ih =>
    rw [List.map_cons, List.pairwise_cons] at hl
    rw [rows, List.flatMap_cons, List.pairwise_append]
    refine ⟨?_, ih hl.2 (fun x hx => hp x (by simp [hx])), ?_⟩
    · rw [List.pairwise_map]
      exact (hp e (by simp)).imp fun h => .inr ⟨rfl, h⟩
    · intro a ha b hb
      obtain ⟨p, -, rfl⟩ := List.mem_map.1 ha
      obtain ⟨f, hf, hb⟩ := List.mem_flatMap.1 hb
      obtain ⟨q, -, rfl⟩ := List.mem_map.1 hb
      exact .inl (hl.1 _ (List.mem_map.2 ⟨f, hf, rfl⟩))

end Scan

/-- The scan of an order that ignores the second column, on a graph that is not empty. -/
theorem Loaded.scanD (h : Loaded kb g) (hE : SortsPairs E.sortP) (hf : g.length < E.fuel) (d : Order)
    (hpres : kb.present d.idx = true ∨ (d.idx ≥ 3 ∧ kb.present (d.idx - 3) = true)) (hg : g ≠ []) :
    ∃ s out, Scan.init kb d.idx = some s ∧ Yields (Scan.itrD kb E) s out ∧ out.Pairwise Row3.lt2 ∧
      ∀ k v c, (k, (v, c)) ∈ out ↔ ∃ ps, SortedS ps ∧ PairsOf g d k ps ∧ c = ((ps.filter fun p => p.1 = v).length : Int) ∧ 0 < c := by
  obtain ⟨t0, ht0⟩ : ∃ t, t ∈ g := by
    cases g with
    | nil => exact absurd rfl hg
    | cons t _ => exact ⟨t, by simp⟩
  -- the pairs of a key
  have hps : ∀ k, ∃ ps, SortedS ps ∧ PairsOf g d k ps := by
    intro k
    obtain ⟨out, h1, h2⟩ := exists_sortedS ((g.filter fun t => d.key t = k).map d.pair)
    refine ⟨out, h1, fun p => ?_⟩
    rw [h2, List.mem_map]
    constructor
    · rintro ⟨t, ht, rfl⟩
      rw [List.mem_filter] at ht
      exact ⟨t, ht.1, by simpa using ht.2, rfl⟩
    · rintro ⟨t, h1, h2, h3⟩
      exact ⟨t, List.mem_filter.2 ⟨h1, by simpa using h2⟩, h3⟩
  have uniq : ∀ {k ps ps'}, SortedS ps → PairsOf g d k ps → SortedS ps' → PairsOf g d k ps' → ps = ps' := by
    intro k ps ps' a b a' b'
    exact sortedS_ext a a' fun p => (b p).trans (b' p).symm
  let P : Int → List Pair := fun k => Classical.choose (hps k)
  have hP : ∀ k, SortedS (P k) ∧ PairsOf g d k (P k) := fun k => Classical.choose_spec (hps k)
  have hR : ∀ k, IsDistinct (P k) (runs (P k)) := fun k => isDistinct_runs (Scan.SortedS.fst (hP k).1)
  have hmem : ∀ (l : List (Int × Coord)), (∀ t ∈ g, d.key t ∈ l.map (·.1)) → ∀ k v c, (k, (v, c)) ∈ Scan.rows (fun k => runs (P k)) l ↔
      ∃ ps, SortedS ps ∧ PairsOf g d k ps ∧ c = ((ps.filter fun p => p.1 = v).length : Int) ∧ 0 < c := by
    intro l hl k v c
    rw [Scan.mem_rows]
    simp only [(hR k).mem_iff]
    constructor
    · rintro ⟨-, h1, h2⟩
      exact ⟨_, (hP k).1, (hP k).2, h1, h2⟩
    · rintro ⟨ps, h1, h2, h3, h4⟩
      obtain rfl := uniq h1 h2 (hP k).1 (hP k).2
      refine ⟨?_, h3, h4⟩
      obtain ⟨p, hp⟩ := List.exists_mem_of_length_pos (show 0 < ((P k).filter fun p => p.1 = v).length by omega)
      obtain ⟨t, ht, e, -⟩ := ((hP k).2 p).1 (List.mem_filter.1 hp).1
      rw [← e]; exact hl t ht
  have hstored : ∀ l, kb.files d.idx = some l → ∀ e ∈ l, Scan.OpensD kb (Scan.openStored kb e.2) (runs (P e.1)) := by
    intro l hl e he
    have := h.files d
    rw [hl] at this
    obtain ⟨cs, q1, q2⟩ := (this.2 e.1 e.2).1 he
    obtain ⟨ps, g1, g2⟩ := h.tables d _ _ _ q1 q2
    rw [uniq (hP e.1).1 (hP e.1).2 g1.sorted g2]
    exact Scan.opensD_stored g1
  by_cases hd : d.idx ≥ 3
  · obtain ⟨d', e1, e2, e3⟩ := d.exists_partner hd
    have hlt : d'.idx < 3 := by rw [e1]; cases d <;> simp [Order.idx]
    have hp3 : kb.present d'.idx = true := by
      rw [e1]
      rcases hpres with hp | hp
      · exact h.partner _ hd hp
      · exact hp.2
    have hfd' := h.files d'
    cases hfl : kb.files (d.idx - 3) with
    | none =>
      rw [e1, hfl] at hfd'
      obtain ⟨cs, e, q1, q2⟩ := h.complete d' hlt hp3 t0 ht0
      rw [e1] at q2
      rw [hfd' _ _ q1] at q2
      simp at q2
    | some l2 =>
      rw [e1, hfl] at hfd'
      obtain ⟨f1, f2⟩ := hfd'
      have hall : ∀ t ∈ g, d.key t ∈ l2.map (·.1) := by
        intro t ht
        obtain ⟨cs, e, q1, q2⟩ := h.complete d' hlt hp3 t ht
        rw [e2]
        exact List.mem_map.2 ⟨_, (f2 _ _).2 ⟨cs, q1, by rw [← e1]; exact q2⟩, rfl⟩
      have hrev : ∀ e ∈ l2, Scan.OpensD kb (Scan.openReversed kb E e.2) (runs (P e.1)) := by
        intro e he
        obtain ⟨cs, q1, q2⟩ := (f2 e.1 e.2).1 he
        obtain ⟨ps, g1, g2⟩ := h.tables d' _ _ _ q1 (by rw [e1]; exact q2)
        have hlen := pairsOf_length g2 g1.sorted
        refine Scan.opensD_reversed hE g1 (by omega) (hP e.1).1 ?_
        refine (List.perm_ext_iff_of_nodup ?_ ?_).2 fun p => ?_
        · exact (hP e.1).1.imp fun h e => by subst e; simp only [Pair.lt] at h; omega
        · refine List.pairwise_map.2 (g1.sorted.imp fun {a b} hab e => ?_)
          rw [Prod.mk.injEq] at e
          simp only [Pair.lt] at hab; omega
        · rw [(hP e.1).2 p]; exact (g2.swap e2 e3 p).symm
      have hsub : ∀ l1, kb.files d.idx = some l1 → ∀ e ∈ l1, e.1 ∈ l2.map (·.1) := by
        intro l1 hl e he
        have := h.files d
        rw [hl] at this
        obtain ⟨cs, q1, q2⟩ := (this.2 e.1 e.2).1 he
        obtain ⟨ps, g1, g2⟩ := h.tables d _ _ _ q1 q2
        cases ps with
        | nil => exact absurd rfl g1.ne_nil
        | cons p ps =>
          obtain ⟨t, ht, hk, -⟩ := (g2 p).1 (by simp)
          rw [← hk]; exact hall t ht
      unfold Scan.init
      rw [if_pos (by omega), hfl]
      refine ⟨_, Scan.rows (fun k => runs (P k)) l2, rfl, ?_, Scan.rows_sorted2 f1 (fun e _ => List.pairwise_map.1 (hR e.1).1), hmem l2 hall⟩
      cases hf1 : kb.files d.idx with
      | none =>
        exact Scan.yieldsD_two (l1 := []) (.inl ⟨rfl, rfl⟩) .nil f1 (by simp) (by simp) (fun e he _ => hrev e he) _ _ _
      | some l1 =>
        have hfd := h.files d
        rw [hf1] at hfd
        cases l1 with
        | nil =>
          exact Scan.yieldsD_two (l1 := []) (.inl ⟨rfl, rfl⟩) .nil f1 (by simp) (by simp) (fun e he _ => hrev e he) _ _ _
        | cons e r =>
          exact Scan.yieldsD_two (l1 := e :: r) (.inr (.inl ⟨e, r, rfl, rfl⟩)) hfd.1 f1 (hsub _ hf1) (hstored _ hf1)
            (fun e he _ => hrev e he) _ _ _
  · have hlt : d.idx < 3 := by omega
    have hp : kb.present d.idx = true := by
      rcases hpres with hp | hp
      · exact hp
      · exact absurd hp.1 hd
    have hfd := h.files d
    cases hfl : kb.files d.idx with
    | none =>
      rw [hfl] at hfd
      obtain ⟨cs, e, q1, q2⟩ := h.complete d hlt hp t0 ht0
      rw [hfd _ _ q1] at q2
      simp at q2
    | some l =>
      rw [hfl] at hfd
      have hall : ∀ t ∈ g, d.key t ∈ l.map (·.1) := by
        intro t ht
        obtain ⟨cs, e, q1, q2⟩ := h.complete d hlt hp t ht
        exact List.mem_map.2 ⟨_, (hfd.2 _ _).2 ⟨cs, q1, q2⟩, rfl⟩
      unfold Scan.init
      rw [if_neg (by omega), hfl]
      exact ⟨_, Scan.rows (fun k => runs (P k)) l, rfl, Scan.yieldsD_one (hstored l hfl) _ _ _, Scan.rows_sorted2 hfd.1 (fun e _ => List.pairwise_map.1 (hR e.1).1),
        hmem l hall⟩

end Trident
