import Verif.Load.MergeFiles
import Verif.Props.Query
/-!
# Sorting the input of the loader

* `recOf t` are the 15 bytes that stand for a triple while it is sorted, `<` on lists of bytes is their order;
* `rowLt`, `rowLe`: lexicographic order of triples of numbers, `permRow p t`: the triple in the order of permutation `p`;
* `sortChunks2 … files = some out`: `out` has for every round, and for every requested permutation, the files written.
-/
namespace Trident.PermSorter
open Trident.Load

/-! ## C48 -/

/-- **C48**: the order of the bytes of the records is the lexicographic order of the triples. -/
theorem C48_order {t t' : T3} (h : t.1 < 2 ^ 40 ∧ t.2.1 < 2 ^ 40 ∧ t.2.2 < 2 ^ 40) (h' : t'.1 < 2 ^ 40 ∧ t'.2.1 < 2 ^ 40 ∧ t'.2.2 < 2 ^ 40) :
    recLess (recOf t) (recOf t') = true ↔ rowLt t t' := by
  unfold recLess
  rw [decide_eq_true_iff]
  exact recOf_lt h h'

/-- **C48**: a triple is read back from its record. -/
theorem C48_decode {t : T3} (h : t.1 < 2 ^ 40 ∧ t.2.1 < 2 ^ 40 ∧ t.2.2 < 2 ^ 40) : tripleOf (recOf t) = t := tripleOf_recOf h

/-- **C48** for records with a count, whose third field has eight bytes: the order is that of the triples, then of the counts. -/
theorem C48_order_count {x y : T3 × Nat} (h : x.1.1 < 2 ^ 40 ∧ x.1.2.1 < 2 ^ 40 ∧ x.1.2.2 < 2 ^ 64 ∧ x.2 < 2 ^ 40)
    (h' : y.1.1 < 2 ^ 40 ∧ y.1.2.1 < 2 ^ 40 ∧ y.1.2.2 < 2 ^ 64 ∧ y.2 < 2 ^ 40) :
    recLess (recCountOf x) (recCountOf y) = true ↔ rowLt x.1 y.1 ∨ (x.1 = y.1 ∧ x.2 < y.2) := by
  obtain ⟨⟨a, b, c⟩, d⟩ := x
  obtain ⟨⟨a', b', c'⟩, d'⟩ := y
  simp only at h h' ⊢
  obtain ⟨h1, h2, h3, h4⟩ := h
  obtain ⟨g1, g2, g3, g4⟩ := h'
  have e : (2 : Nat) ^ 40 = 256 ^ 5 := by decide
  have e8 : (2 : Nat) ^ 64 = 256 ^ 8 := by decide
  rw [e] at h1 h2 h4 g1 g2 g4
  rw [e8] at h3 g3
  unfold recLess recCountOf
  rw [decide_eq_true_iff]
  simp only [List.append_assoc]
  rw [append_lt (by simp), append_lt (by simp), append_lt (by simp), enc_lt 5 h1 g1, enc_lt 5 h2 g2, enc_lt 8 h3 g3, enc_lt 5 h4 g4,
    enc_inj h1 g1, enc_inj h2 g2, enc_inj h3 g3]
  simp only [rowLt, Prod.mk.injEq]
  omega

/-- **C48** for records with a count. -/
theorem C48_decode_count {x : T3 × Nat} (h : x.1.1 < 2 ^ 40 ∧ x.1.2.1 < 2 ^ 40 ∧ x.1.2.2 < 2 ^ 64 ∧ x.2 < 2 ^ 40) : tripleCountOf (recCountOf x) = x := by
  obtain ⟨⟨a, b, c⟩, d⟩ := x
  simp only at h
  obtain ⟨h1, h2, h3, h4⟩ := h
  have e : (2 : Nat) ^ 40 = 256 ^ 5 := by decide
  have e8 : (2 : Nat) ^ 64 = 256 ^ 8 := by decide
  rw [e] at h1 h2 h4
  rw [e8] at h3
  have key : ∀ {u v w z : List UInt8}, u.length = 5 → v.length = 5 → w.length = 8 → z.length = 5 →
      (u ++ v ++ w ++ z).take 5 = u ∧ ((u ++ v ++ w ++ z).drop 5).take 5 = v ∧ ((u ++ v ++ w ++ z).drop 10).take 8 = w ∧ ((u ++ v ++ w ++ z).drop 18).take 5 = z := by
    intro u v w z hu hv hw hz
    refine ⟨?_, ?_, ?_, ?_⟩
    · rw [List.append_assoc, List.append_assoc, List.take_left' hu]
    · rw [List.append_assoc, List.append_assoc, List.drop_left' hu, List.take_left' hv]
    · rw [List.append_assoc, List.drop_left' (by simp [hu, hv]), List.take_left' hw]
    · rw [List.drop_left' (by simp [hu, hv, hw]), List.take_of_length_le (by omega)]
  obtain ⟨k1, k2, k3, k4⟩ := key (u := encBE 5 a) (v := encBE 5 b) (w := encBE 8 c) (z := encBE 5 d) (by simp) (by simp) (by simp) (by simp)
  unfold tripleCountOf field recCountOf
  rw [List.drop_zero, k1, k2, k3, k4, decBE_enc h1, decBE_enc h2, decBE_enc h3, decBE_enc h4]

/-- Two triples that differ in a high byte. -/
example : recLess (recOf (1, 2 ^ 39, 255)) (recOf (1, 2 ^ 39, 256)) = true ∧ recLess (recOf (1, 2 ^ 39, 255)) (recOf (1, 5, 2 ^ 30)) = false ∧
    tripleOf (recOf (1, 2 ^ 39 + 7, 255)) = (1, 2 ^ 39 + 7, 255) := by decide +kernel

/-! ## C52 -/

/-- **C52** (partial): the files written for a requested permutation contain together each triple of the input once, in the order of that permutation,
and the files of one round are sorted.
Here the input is in the order of the first permutation `p0`, no permutation follows itself, and the number of threads is a multiple of
the number of reading threads.
Missing: ids above 4311810305 (false, see below). -/
theorem C52_sort_partial {srt : List Rec → List Rec} (h : SortsRecs srt) {nthreads ionthreads maxElements estimated p0 : Nat} {ps : List Nat} (hc : Chain p0 ps)
    {files : List (List T3)} (hio : ionthreads ∣ nthreads) (hnt : 0 < nthreads)
    (hs : ∀ f ∈ files, ∀ t ∈ f, t.1 ≤ 4311810305 ∧ t.2.1 ≤ 4311810305 ∧ t.2.2 ≤ 4311810305) :
    ∃ out, sortChunks2 srt nthreads ionthreads maxElements estimated p0 ps (files.map fun f => f.map (permRow p0)) = some out ∧
      ∀ j p, (p0 :: ps)[j]? = some p → (out.flatMap fun r => (r.getD j []).flatten).Perm (files.flatten.map (permRow p)) ∧
        ∀ r ∈ out, ((r.getD j []).flatten).Pairwise rowLe :=
  sort_spec h hc hio hnt hs

/-- Rewriting a record for another permutation, for all 30 pairs of permutations. -/
theorem C52_permute {cur next : Nat} (hc : cur < 6) (hn : next < 6) (hne : cur ≠ next) (t : T3) :
    permute cur next (recOf (permRow cur t)) = recOf (permRow next t) := permute_spec hc hn hne t

def insRec (a : Rec) : List Rec → List Rec
  | [] => [a]
  | b :: l => if b < a then b :: insRec a l else a :: b :: l

/-- A sort, for the examples. -/
def sortRecs : List Rec → List Rec
  | [] => []
  | a :: l => insRec a (sortRecs l)

theorem insRec_perm (a : Rec) : ∀ l, (insRec a l).Perm (a :: l)
  | [] => .refl _
  | b :: l => by
    unfold insRec
    by_cases h : b < a
    · rw [if_pos h]
      exact ((insRec_perm a l).cons b).trans (.swap a b l)
    · rw [if_neg h]

theorem sortRecs_sorts : SortsRecs sortRecs where
  perm l := by
    induction l with
    | nil => exact .refl _
    | cons a l ih => exact (insRec_perm a _).trans (ih.cons a)
  sorted l := by
    have : (sortRecs l).Pairwise (· ≤ ·) := by
      induction l with
      | nil => exact .nil
      | cons a l ih =>
        have ins : ∀ q : List Rec, q.Pairwise (· ≤ ·) → (insRec a q).Pairwise (· ≤ ·) := by
          intro q
          induction q with
          | nil => intro _; simp [insRec]
          | cons b q ih2 =>
            intro hq
            rw [List.pairwise_cons] at hq
            unfold insRec
            by_cases h : b < a
            · rw [if_pos h, List.pairwise_cons]
              refine ⟨?_, ih2 hq.2⟩
              intro c hc
              rcases List.mem_cons.1 ((insRec_perm a q).mem_iff.1 hc) with rfl | hc
              · exact List.le_of_lt h
              · exact hq.1 c hc
            · rw [if_neg h, List.pairwise_cons]
              refine ⟨?_, List.pairwise_cons.2 hq⟩
              intro c hc
              have hab : a ≤ b := List.not_lt.1 h
              rcases List.mem_cons.1 hc with rfl | hc
              · exact hab
              · exact List.le_trans hab (hq.1 c hc)
        exact ins _ ih
    exact this.imp fun h => recLess_false.2 h

instance : DecidableEq T3 := inferInstanceAs (DecidableEq (Nat × Nat × Nat))
instance : DecidableEq (List (List T3)) := inferInstance
instance : DecidableEq (List (List (List (List T3)))) := inferInstance

/-- Three files, two threads, an array for four triples, so two rounds; the second is filled up. -/
example : sortChunks2 sortRecs 2 1 4 6 0 [1, 2] [[(3, 4, 5), (1, 2, 3), (9, 9, 9)], [(7, 7, 7)], [(2, 2, 8)]] =
    some [[[[(1, 2, 3), (3, 4, 5)], [(7, 7, 7), (9, 9, 9)]], [[(3, 2, 1), (5, 4, 3)], [(7, 7, 7), (9, 9, 9)]], [[(2, 3, 1), (4, 5, 3)], [(7, 7, 7), (9, 9, 9)]]],
      [[[(2, 2, 8)], []], [[(8, 2, 2)], []], [[(2, 8, 2)], []]]] := by decide +kernel

example : Chain 0 [1, 2] := by simp [Chain]

/-- **C52** fails for larger ids: the rest of the array is filled with bytes 1 "so that they are sorted at the end", but such a record comes before
a triple with ids from 4311810306 on.  Here the array has room for two triples and there are three.  The third is lost, and a triple that
was never in the input is loaded. -/
theorem C52_filler_violated : ∃ (t1 t2 t3 : T3) (out : List (List (List (List T3)))),
    t1 = (2 ^ 33, 1, 1) ∧ t2 = (2 ^ 33, 1, 2) ∧ t3 = (2 ^ 33, 1, 3) ∧ sortChunks2 sortRecs 1 1 2 3 0 [] [[t1, t2, t3]] = some out ∧
      out.flatten.flatten.flatten = [t1, t2, (4311810305, 4311810305, 4311810305)] :=
  ⟨_, _, _, _, rfl, rfl, rfl, (by decide +kernel :
    sortChunks2 sortRecs 1 1 2 3 0 [] [[(2 ^ 33, 1, 1), (2 ^ 33, 1, 2), (2 ^ 33, 1, 3)]] =
      some [[[[(2 ^ 33, 1, 1), (2 ^ 33, 1, 2)]]], [[[(4311810305, 4311810305, 4311810305)]]]]), by decide +kernel⟩

/-- **C52** fails if the number of threads is no multiple of the number of reading threads (the default is 2, and the number of threads is
lowered to the number of cores): the last thread reads a part that no reader has. -/
theorem C52_threads_violated {srt : List Rec → List Rec} {m e : Nat} (a b c : List T3) : sortChunks2 srt 3 2 m e 0 [] [a, b, c] = none := by
  simp [sortChunks2, streamsOf, streamIndex, List.range_succ]

/-! ## C65 -/

/-- **C65** (partial): the rows from which the tables of a permutation are written are the sorted triples of the input in the order of that permutation.
The files of all rounds are merged in groups of four, in the order in which the directory lists them.  So the load is that of C21, C22 and C49,
where the sort is any function `sort` that sorts.
Missing: as for C52. -/
theorem C65_feed_partial {srt : List Rec → List Rec} (h : SortsRecs srt) {mrg : List (List T3) → List T3} (hm : Merges mrg)
    {order : List (List T3) → List (List T3)} (ho : ∀ l, (order l).Perm l) {sort : List T3 → List T3} (hsort : SortsRows sort)
    {nthreads ionthreads maxElements estimated p0 : Nat} {ps : List Nat} (hc : Chain p0 ps)
    {files : List (List T3)} (hio : ionthreads ∣ nthreads) (hnt : 0 < nthreads)
    (hs : ∀ f ∈ files, ∀ t ∈ f, t.1 ≤ 4311810305 ∧ t.2.1 ≤ 4311810305 ∧ t.2.2 ≤ 4311810305) :
    ∃ out, sortChunks2 srt nthreads ionthreads maxElements estimated p0 ps (files.map fun f => f.map (permRow p0)) = some out ∧
      ∀ j p, (p0 :: ps)[j]? = some p → feed mrg order (out.map fun r => (r.getD j []).flatten) = sort (files.flatten.map (permRow p)) := by
  obtain ⟨out, h1, h2⟩ := sort_spec h hc hio hnt hs (maxElements := maxElements) (estimated := estimated)
  refine ⟨out, h1, fun j p hj => ?_⟩
  obtain ⟨a, b⟩ := h2 j p hj
  obtain ⟨c, d⟩ := feed_spec hm ho (fs := out.map fun r => (r.getD j []).flatten) (by
    intro f hf
    obtain ⟨r, hr, rfl⟩ := List.mem_map.1 hf
    exact b r hr)
  rw [← List.flatMap_def] at c
  obtain ⟨e, f⟩ := hsort (files.flatten.map (permRow p))
  exact List.Perm.eq_of_pairwise (fun _ _ _ _ => rowLe_antisymm) d e ((c.trans a).trans f.symm)

/-- A merger. -/
theorem exMerges : Merges fun fs => sortRows fs.flatten := fun _ _ => ⟨(sortRows_sorts _).2, (sortRows_sorts _).1⟩

/-- Two rounds. -/
example : (sortChunks2 sortRecs 2 1 4 6 0 [1, 2] [[(3, 4, 5), (1, 2, 3), (9, 9, 9)], [(7, 7, 7)], [(2, 2, 8)]]).map
    (fun out => feed (fun fs => sortRows fs.flatten) List.reverse (out.map fun r => (r.getD 1 []).flatten)) =
    some [(3, 2, 1), (5, 4, 3), (7, 7, 7), (8, 2, 2), (9, 9, 9)] := by decide +kernel

end Trident.PermSorter
