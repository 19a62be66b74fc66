import Verif.Tables.StratProofs
import Verif.Props.Row
import Verif.Props.Cluster
import Verif.Props.Column
/-!
# C03, C04, C08: choice of the layout, its signature byte, and layout independence
-/
namespace Trident
open Strat

/-! ## C03 -/

/-- The layouts the chooser can select: fields of 1, 2, 4 or 5 bytes, group counters of 1 or 4
bytes, and the row layout with 5-byte keys and 8-byte references of aggregated tables. -/
inductive Strat.Selectable : Layout → Prop
  | column : Selectable .column
  | row (w1 w2 : Width) (h1 : w1 ≠ .b8) (h2 : w2 ≠ .b8) : Selectable (.row w1 w2)
  | cluster (w1 w2 wc : Width) (h1 : w1 ≠ .b8) (h2 : w2 ≠ .b8) (h : wc = .b1 ∨ wc = .b4) :
      Selectable (.cluster w1 w2 wc)

/-- The flag of a field width (storagestrat.cpp:374-390). -/
def Strat.widthFlag : Width → Nat
  | .b1 => 0 | .b2 => 1 | .b4 => 2 | .b5 => 3 | .b8 => 4

/-- The signature byte of a layout, composed with the setters as storagestrat.cpp:394-407 does. -/
def Strat.signature : Layout → Nat
  | .column => setStorageType 0 NEWCOLUMN % 256
  | .row w1 w2 =>
    setBytesField2 (setBytesField1 (setStorageType 0 NEWROW) (widthFlag w1)) (widthFlag w2) % 256
  | .cluster w1 w2 wc =>
    let g := setBytesField2 (setBytesField1 (setStorageType 0 NEWCLUSTER) (widthFlag w1)) (widthFlag w2)
    (if wc = .b4 then g ||| 1 else g) % 256

/-- C03: reading the signature byte of a selectable layout gives back that layout with its
widths, not aggregated. -/
theorem C03_signature_roundtrip (L : Layout) (h : Selectable L) :
    signature L < 256 ∧ decode (signature L) = some L ∧ isAggregated (signature L) = false := by
  cases h with
  | column => decide
  | row w1 w2 h1 h2 =>
    revert h1 h2
    cases w1 <;> cases w2 <;> decide
  | cluster w1 w2 wc h1 h2 h =>
    revert h1 h2
    rcases h with rfl | rfl <;> cases w1 <;> cases w2 <;> decide

/-- C03: different selectable layouts have different signature bytes. -/
theorem C03_signature_injective (L L' : Layout) (h : Selectable L) (h' : Selectable L')
    (e : signature L = signature L') : L = L' := by
  have a := (C03_signature_roundtrip L h).2.1
  have b := (C03_signature_roundtrip L' h').2.1
  rw [e, b] at a
  exact (Option.some.inj a).symm

/-- C03: the signature of aggregated tables (`STRATEGY_FOR_POS`, inserter.cpp:29-30) is read as the
row layout with a 5-byte key and an 8-byte reference, and is flagged as aggregated. -/
theorem C03_aggregated_signature :
    decode (getStrategy NEWROW 3 4 true) = some (.row .b5 .b8) ∧
      isAggregated (getStrategy NEWROW 3 4 true) = true := by decide

/-- C03: the three fixed strategies a user can ask for are read as the layouts they are
documented to be. -/
theorem C03_fixed_strategies :
    decode strat5 = some .column ∧ decode strat6 = some (.row .b5 .b5) ∧
      decode strat7 = some (.cluster .b5 .b5 .b4) := by decide

/-- C03 is false for `getStrategy` with two different widths: it sets both fields from the first.
(The only caller passes the aggregated row layout, for which it does not matter.) -/
theorem C03_getStrategy_violated :
    decode (getStrategy NEWROW (widthFlag .b1) (widthFlag .b5) false) = some (.row .b1 .b1) := by
  decide

theorem Strat.decode_row_flags {f1 f2 : Nat} (h1 : f1 ≤ 3) (h2 : f2 ≤ 3) :
    decode (setBytesField2 (setBytesField1 (setStorageType 0 NEWROW) f1) f2 % 256)
      = some (.row (flagWidth f1) (flagWidth f2)) := by
  have e1 : f1 = 0 ∨ f1 = 1 ∨ f1 = 2 ∨ f1 = 3 := by omega
  have e2 : f2 = 0 ∨ f2 = 1 ∨ f2 = 2 ∨ f2 = 3 := by omega
  rcases e1 with rfl | rfl | rfl | rfl <;> rcases e2 with rfl | rfl | rfl | rfl <;> decide

theorem Strat.decode_cluster_flags {f1 f2 : Nat} (h1 : f1 ≤ 3) (h2 : f2 ≤ 3) :
    decode (setBytesField2 (setBytesField1 (setStorageType 0 NEWCLUSTER) f1) f2 % 256)
      = some (.cluster (flagWidth f1) (flagWidth f2) .b1) ∧
    decode ((setBytesField2 (setBytesField1 (setStorageType 0 NEWCLUSTER) f1) f2 ||| 1) % 256)
      = some (.cluster (flagWidth f1) (flagWidth f2) .b4) := by
  have e1 : f1 = 0 ∨ f1 = 1 ∨ f1 = 2 ∨ f1 = 3 := by omega
  have e2 : f2 = 0 ∨ f2 = 1 ∨ f2 = 2 ∨ f2 = 3 := by omega
  rcases e1 with rfl | rfl | rfl | rfl <;> rcases e2 with rfl | rfl | rfl | rfl <;> decide

/-! ## C04 -/

/-- Every value of `l`, and every group size of `l`, can be written in its field without losing
bits. (The column layout stores the widths with the table; its fields have up to 7 bytes.) -/
def Strat.WideEnough : Layout → List (Nat × Nat) → Prop
  | .row w1 w2, l => ∀ p ∈ l, p.1 < 256 ^ w1.size ∧ p.2 < 256 ^ w2.size
  | .cluster w1 w2 wc, l => ∀ p ∈ l, p.1 < 256 ^ w1.size ∧ p.2 < 256 ^ w2.size ∧
      (l.filter fun q => q.1 = p.1).length < 256 ^ wc.size
  | .column, l => ∀ p ∈ l, p.1 < 256 ^ 7 ∧ p.2 < 256 ^ 7

/-- C04: the layout chosen for a sorted list of pairs of 5-byte values has a reader, and its
fields are wide enough for every value and every group size. -/
theorem C04_chosen_layout_wide_enough (l : List (Nat × Nat)) (ncc : Nat) (big : Bool)
    (hs : Sorted (toI l)) (hv : ∀ p ∈ l, p.1 < 2 ^ 40 ∧ p.2 < 2 ^ 40) :
    ∃ L, decode (determine l ncc big) = some L ∧ WideEnough L l := by
  have hs' : l.Pairwise fun p q => p.1 ≤ q.1 := by
    have := List.pairwise_map.1 hs
    exact this.imp fun h => by rcases h with h | ⟨h, _⟩ <;> simp at h <;> omega
  have inv := Scan.inv_foldl hs'
  have b1 := inv.le1 (2 ^ 40) (fun p hp => (hv p hp).1) (by omega)
  have b2 := inv.le2 (2 ^ 40) (fun p hp => (hv p hp).2) (by omega)
  unfold determine
  generalize l.foldl Scan.step {} = s at *
  by_cases hlen : l.length < THRESHOLD
  · simp only [if_pos hlen]
    split
    · exact ⟨.column, by decide, fun p hp => by have := hv p hp; omega⟩
    have c1 := nbytes_cap (n := s.max1) (by omega)
    have c2 := nbytes_cap (n := s.max2) (by omega)
    generalize nbytes s.max1 = n1 at *
    generalize nbytes s.max2 = n2 at *
    by_cases hg : s.maxGroup ≤ 255
    · simp only [if_pos hg, gt_iff_lt, Nat.lt_irrefl, if_false]
      by_cases hsp : l.length * (n1 + n2) < s.ngroups * (n1 + 1) + n2
      · rw [if_pos hsp]
        refine ⟨_, decode_row_flags (flag_le n1) (flag_le n2), fun p hp => ⟨?_, ?_⟩⟩
        · exact Nat.lt_of_le_of_lt (inv.m1 p hp) c1
        · exact Nat.lt_of_le_of_lt (inv.m2 p hp) c2
      · rw [if_neg hsp]
        refine ⟨_, (decode_cluster_flags (flag_le n1) (flag_le n2)).1, fun p hp => ⟨?_, ?_, ?_⟩⟩
        · exact Nat.lt_of_le_of_lt (inv.m1 p hp) c1
        · exact Nat.lt_of_le_of_lt (inv.m2 p hp) c2
        · have := inv.grp p hp
          simp only [Width.size]; omega
    · simp only [if_neg hg, gt_iff_lt, Nat.reduceLT, if_true]
      by_cases hsp : l.length * (n1 + n2) < s.ngroups * (n1 + 4) + n2
      · rw [if_pos hsp]
        refine ⟨_, decode_row_flags (flag_le n1) (flag_le n2), fun p hp => ⟨?_, ?_⟩⟩
        · exact Nat.lt_of_le_of_lt (inv.m1 p hp) c1
        · exact Nat.lt_of_le_of_lt (inv.m2 p hp) c2
      · rw [if_neg hsp]
        refine ⟨_, (decode_cluster_flags (flag_le n1) (flag_le n2)).2, fun p hp => ⟨?_, ?_, ?_⟩⟩
        · exact Nat.lt_of_le_of_lt (inv.m1 p hp) c1
        · exact Nat.lt_of_le_of_lt (inv.m2 p hp) c2
        · have := List.length_filter_le (fun q : Nat × Nat => q.1 = p.1) l
          unfold THRESHOLD at hlen
          simp only [Width.size]; omega
  · simp only [if_neg hlen]
    cases big
    · exact ⟨.column, by decide, fun p hp => by have := hv p hp; omega⟩
    · exact ⟨.row .b5 .b5, by decide, fun p hp => by have := hv p hp; simp only [Width.size]; omega⟩

/-- C04 is false for ids that need six bytes: the row layout with a 5-byte first field is chosen. -/
theorem C04_six_byte_ids_violated :
    decode (determine [(2 ^ 40, 1)] 10 false) = some (.row .b5 .b1) ∧
      ¬ WideEnough (.row .b5 .b1) [(2 ^ 40, 1)] := by
  constructor
  · decide +kernel
  · simp [WideEnough, Width.size]

/-! ## C08 -/

/-- The pairs of `l` that match the fixed values (the second value can only be fixed together with
the first one). -/
def matching (l : List Pair) (c1 c2 : Option Int) : List Pair :=
  l.filter fun p => (c1 = none ∨ c1 = some p.1) ∧ (c1 = none ∨ c2 = none ∨ c2 = some p.2)

/-- Values below `2^39` (5 bytes, top bit clear, see C01) that fit are also read back. -/
def Strat.Readable : Layout → List (Nat × Nat) → Prop
  | .row w1 w2, l => Row.Fits w1 w2 l
  | .cluster w1 w2 wc, l => Cluster.Fits w1 w2 wc l
  | .column, l => Column.Fits l

theorem Strat.readable_of_wide {L : Layout} {l : List (Nat × Nat)} (h : WideEnough L l)
    (hv : ∀ p ∈ l, p.1 < 2 ^ 39 ∧ p.2 < 2 ^ 39) (hl : l.length < 2 ^ 39) : Readable L l := by
  cases L with
  | row w1 w2 => exact fun p hp => ⟨cap_safe (h p hp).1 (hv p hp).1, cap_safe (h p hp).2 (hv p hp).2⟩
  | cluster w1 w2 wc =>
    refine fun p hp => ⟨cap_safe (h p hp).1 (hv p hp).1, cap_safe (h p hp).2.1 (hv p hp).2,
      cap_safe (h p hp).2.2 ?_⟩
    have := List.length_filter_le (fun q : Nat × Nat => q.1 = p.1) l
    omega
  | column => exact ⟨fun p hp => by have := hv p hp; omega, by omega⟩

/-- C08, partial (ids below `2^39` in 5-byte fields, see `C08_large_ids_violated`): a list stored in any layout whose fields can hold it answers every lookup with exactly
the matching pairs, in order. -/
theorem C08_any_layout_partial (L : Layout) (thr : Nat) (l : List (Nat × Nat)) (m : Mem) (a : Nat)
    (hr : Readable L l) (hs : SortedS (toI l)) (hne : l ≠ [])
    (h : Placed m a (L.encode thr l)) (c1 c2 : Option Int) :
    Yields (Tab.itr m) (openTab m a (a + (L.encode thr l).length) L c1 c2)
      (matching (toI l) c1 c2) := by
  have e0 : matching (toI l) none c2 = toI l := by
    rw [matching, List.filter_eq_self]; simp
  have e1 : ∀ c, matching (toI l) (some c) none = (toI l).filter fun p => p.1 = c := by
    intro c; unfold matching; congr 1; funext p; simp [eq_comm]
  have e2 : ∀ c d, matching (toI l) (some c) (some d)
      = if (c, d) ∈ toI l then [(c, d)] else [] := by
    intro c d
    rw [← filter_eq_singleton hs]
    unfold matching; congr 1; funext p
    simp [Prod.ext_iff, eq_comm]
  match L, c1, c2 with
  | .row w1 w2, none, _ => rw [e0]; exact yields_row (C05_row_scan w1 w2 l m a hr h)
  | .row w1 w2, some c, none =>
    rw [e1]; exact yields_row (C09_row_first_fixed w1 w2 l m a hr hs.sorted hne h c)
  | .row w1 w2, some c, some d =>
    rw [e2]; exact yields_row (C10_row_both_fixed w1 w2 l m a hr hs hne h c d)
  | .cluster w1 w2 wc, none, _ => rw [e0]; exact yields_cluster (C06_cluster_scan w1 w2 wc l m a hr h)
  | .cluster w1 w2 wc, some c, none =>
    rw [e1]; exact yields_cluster (C11_cluster_first_fixed w1 w2 wc l m a hr hs.sorted h c)
  | .cluster w1 w2 wc, some c, some d =>
    rw [e2]; exact yields_cluster (C11_cluster_both_fixed w1 w2 wc l m a hr hs h c d)
  | .column, none, _ => rw [e0]; exact yields_column (C07_column_scan thr l m a hr h)
  | .column, some c, none =>
    rw [e1]; exact yields_column (C12_column_first_fixed thr l m a hr hs h c)
  | .column, some c, some d =>
    rw [e2]; exact yields_column (C12_column_both_fixed thr l m a hr hs h c d)

/-- C08: two copies of a list, in any two layouts, anywhere in memory, answer every lookup alike. -/
theorem C08_layout_independence_partial (L L' : Layout) (thr thr' : Nat) (l : List (Nat × Nat))
    (m m' : Mem) (a a' : Nat) (hr : Readable L l) (hr' : Readable L' l)
    (hs : SortedS (toI l)) (hne : l ≠ []) (h : Placed m a (L.encode thr l))
    (h' : Placed m' a' (L'.encode thr' l)) (c1 c2 : Option Int) (out : List Pair) :
    Yields (Tab.itr m) (openTab m a (a + (L.encode thr l).length) L c1 c2) out ↔
      Yields (Tab.itr m') (openTab m' a' (a' + (L'.encode thr' l).length) L' c1 c2) out := by
  have h1 := C08_any_layout_partial L thr l m a hr hs hne h c1 c2
  have h2 := C08_any_layout_partial L' thr' l m' a' hr' hs hne h' c1 c2
  constructor
  · intro hy; rw [hy.unique h1]; exact h2
  · intro hy; rw [hy.unique h2]; exact h1

/-- C04 and C08 together, for ids below `2^39`: choose a layout for the list, write the list with
the writer of the chosen signature, read it with the reader of that signature: every lookup
returns exactly the matching pairs. -/
theorem C08_store_and_read_partial (thr ncc : Nat) (big : Bool) (l : List (Nat × Nat)) (m : Mem) (a : Nat)
    (hs : SortedS (toI l)) (hne : l ≠ []) (hv : ∀ p ∈ l, p.1 < 2 ^ 39 ∧ p.2 < 2 ^ 39)
    (hl : l.length < 2 ^ 39) :
    ∃ L, decode (determine l ncc big) = some L ∧
      ∀ c1 c2 : Option Int, Placed m a (L.encode thr l) →
        Yields (Tab.itr m) (openTab m a (a + (L.encode thr l).length) L c1 c2)
          (matching (toI l) c1 c2) := by
  obtain ⟨L, h1, h2⟩ := C04_chosen_layout_wide_enough l ncc big hs.sorted
    (fun p hp => by have := hv p hp; omega)
  exact ⟨L, h1, fun c1 c2 h => C08_any_layout_partial L thr l m a (readable_of_wide h2 hv hl) hs hne h c1 c2⟩

/-- C08 is false for ids from `2^39` on, which fit in five bytes: the scan of the row layout chosen
for `(2^39, 1)` returns a negative first value, that of the column layout the stored one. -/
theorem C08_large_ids_violated :
    decode (determine [(2 ^ 39, 1)] 10 false) = some (.row .b5 .b1) ∧
    (let e := (Layout.row .b5 .b1).encode 9 [(2 ^ 39, 1)]
     let m : Mem := fun i => e.getD i 0
     Placed m 0 e ∧
       Yields (Tab.itr m) (openTab m 0 e.length (.row .b5 .b1) none none) [(-(2 ^ 39), 1)]) ∧
    (let e := Layout.column.encode 9 [(2 ^ 39, 1)]
     ∀ m a, Placed m a e →
       Yields (Tab.itr m) (openTab m a (a + e.length) .column none none) [(2 ^ 39, 1)]) := by
  refine ⟨by decide +kernel, ⟨?_, ?_⟩, ?_⟩
  · intro i hi
    simp [List.getD_eq_getElem?_getD, hi]
  · rw [yields_cons, yields_nil]; decide +kernel
  · intro e m a h
    exact C08_any_layout_partial .column 9 [(2 ^ 39, 1)] m a
      ⟨by simp, by simp⟩ (by simp [toI, SortedS]) (by simp) h none none

/-! ### Non-vacuity -/

/-- One big group: stored as cluster with 4-byte counter would need 256 pairs; this small list
goes to the cluster layout, the second to the row layout, the third to the column layout. -/
example : decode (determine [(7, 1), (7, 2), (7, 300)] 10 false) = some (.cluster .b1 .b2 .b1) := by
  decide +kernel
example : decode (determine [(70000, 1), (70001, 30)] 10 false) = some (.row .b4 .b1) := by
  decide +kernel
example : decode (determine [(7, 1), (8, 2), (9, 300)] 3 false) = some .column := by
  decide +kernel
example : SortedS (toI [(7, 1), (7, 2), (7, 300)]) := by decide
example : Readable (.cluster .b1 .b2 .b1) [(7, 1), (7, 2), (7, 300)] := by
  simp [Readable, Cluster.Fits, Width.safe]
example : Readable (.row .b5 .b4) [(7, 1), (7, 2), (7, 300)] := by
  simp [Readable, Row.Fits, Width.safe]
example : Selectable (.cluster .b1 .b5 .b4) := .cluster _ _ _ (by decide) (by decide) (.inr rfl)
example : matching (toI [(7, 1), (7, 2), (8, 1)]) (some 7) (some 2) = [(7, 2)] := by decide

end Trident
