import Verif.Sparql.OrderQuerySpec
import Verif.Sparql.SortKeys
import Verif.Sparql.PlanBag
import Verif.Sparql.PlanExec
import Verif.Props.OrderBy
/-!
# The rows that ORDER BY returns, as lines
-/
namespace Trident.Sparql.Parse

open Lex Spec OrderBy OrderBy.Spec

/-- The keys of the operator. -/
abbrev keysOf (num : Text → Nat) (vals : List Nat) (ks : List SKey) : List Key := keys vals (ks.map fun k => (some (num k.name), k.descending))

theorem before_lines {V : OrderBy.Env} {num : Text → Nat} {vals : List Nat} {a b : Row} {s w : List (Option Text)} : ∀ (ks : List SKey) (n : Nat),
    (∀ i k, ks[i]? = some k → cells V a ((vals.idxOf? (num k.name)).getD (2 ^ 32 - 1)) = lineCells s (n + i) ∧ cells V b ((vals.idxOf? (num k.name)).getD (2 ^ 32 - 1)) = lineCells w (n + i)) →
    (Before ((keysOf num vals ks).map fun k => (k.slot, k.desc)) (cells V a) (cells V b) ↔ Before (orderOf n ks) (lineCells s) (lineCells w))
  | [], _, _ => Iff.rfl
  | k :: ks, n, h => by
    obtain ⟨h1, h2⟩ := h 0 k rfl
    have ih := before_lines (V := V) (num := num) (vals := vals) (a := a) (b := b) (s := s) (w := w) ks (n + 1) fun i k hk => by
      rw [show n + 1 + i = n + (i + 1) by omega]
      exact h (i + 1) k hk
    simp only [keysOf, keys, List.map_cons, Before, orderOf, Nat.add_zero] at h1 h2 ih ⊢
    rw [h1, h2, ih]

theorem pairwise_expand {R : Tup → Tup → Prop} (hr : ∀ t, R t t) : ∀ {l : List Row}, l.Pairwise (fun a b => R a.2 b.2) → (expand l).Pairwise R
  | [], _ => .nil
  | r :: l, h => by
    rw [PlanGen.expand_cons, List.pairwise_append]
    obtain ⟨h1, h2⟩ := List.pairwise_cons.1 h
    refine ⟨?_, pairwise_expand hr h2, ?_⟩
    · rw [List.pairwise_replicate]
      exact .inr (hr _)
    · intro t ht u hu
      rw [(List.mem_replicate.1 ht).2]
      obtain ⟨r', hr', _, rfl⟩ := PlanGen.mem_expand.1 hu
      exact h1 r' hr'

/-- The texts of the variables `xs` of a row of the registers `vals`. -/
abbrev textsOf (V : OrderBy.Env) (vals xs : List Nat) (t : Tup) : List (Option Text) := (xs.map (PlanGen.look vals t)).map V.text

section Sorting

variable {V : OrderBy.Env} (hstale : V.stale = false) (hinj : ∀ v w t, V.text v = some t → V.text w = some t → v = w) {num : Text → Nat} {vals : List Nat} {ks : List SKey}
  {xs : List Nat} (hlen : vals.length < 2 ^ 64 - 1) (hks : ∀ k ∈ ks, num k.name ∈ vals) {input : List Row}
  (hval : ∀ r ∈ input, ∃ v : Nat → Nat, r.2 = vals.map v ∧ ∀ x ∈ vals, v x < 2 ^ 62 ∧ ∃ t, V.text (v x) = some t)

theorem idx_of {x : Nat} (h : x ∈ vals) : ∃ i, ∃ hi : i < vals.length, vals.idxOf? x = some i ∧ vals[i] = x := by
  obtain ⟨i, hi⟩ : ∃ i, vals.idxOf? x = some i := by
    rw [← Option.isSome_iff_exists, List.isSome_idxOf?]
    exact h
  obtain ⟨h1, h2, _⟩ := List.findIdx?_eq_some_iff_getElem.1 hi
  exact ⟨i, h1, hi, by simpa using h2⟩

include hstale hinj hlen hks hval in
/-- The rows that are returned are those of the input, in the order of the keys. -/
theorem sort_lines : (∃ out, Returns V (keysOf num vals ks) input out) ∧ ∀ out, Returns V (keysOf num vals ks) input out → out.Perm input ∧
    out.Pairwise fun a b => ¬ Before (orderOf xs.length ks) (lineCells (textsOf V vals (xs ++ ks.map fun k => num k.name) b.2))
      (lineCells (textsOf V vals (xs ++ ks.map fun k => num k.name) a.2)) := by
  have hkey : ∀ k ∈ keysOf num vals ks, ∃ s ∈ ks, vals.idxOf? (num s.name) = some k.slot := by
    intro k hk
    obtain ⟨o, ho, rfl⟩ := List.mem_map.1 hk
    obtain ⟨s, hs, rfl⟩ := List.mem_map.1 ho
    obtain ⟨i, _, hi, _⟩ := idx_of (hks s hs)
    exact ⟨s, hs, by simp only [hi, Option.getD_some]⟩
  have hslot : ∀ k ∈ keysOf num vals ks, k.slot < vals.length := by
    intro k hk
    obtain ⟨s, hs, e⟩ := hkey k hk
    obtain ⟨i, h1, h2, _⟩ := idx_of (hks s hs)
    rw [e] at h2
    cases h2
    exact h1
  have hlenr : ∀ r ∈ input, r.2.length = vals.length := by
    intro r hr
    obtain ⟨v, e, _⟩ := hval r hr
    rw [e, List.length_map]
  obtain ⟨h1, h2⟩ := C89_sort_partial V hstale hinj (keysOf num vals ks) input
    (fun k hk => ⟨Nat.lt_trans (hslot k hk) hlen, fun r hr => by rw [hlenr r hr]; exact hslot k hk⟩) (by
      intro k hk
      left
      intro r hr
      obtain ⟨v, e, hv⟩ := hval r hr
      have hs := hslot k hk
      obtain ⟨a, t, ht⟩ := hv vals[k.slot] (List.getElem_mem hs)
      refine .inr ?_
      rw [e, List.getD_eq_getElem?_getD, List.getElem?_map, List.getElem?_eq_getElem hs, Option.map_some, Option.getD_some]
      exact ⟨a, by rw [ht]; rfl⟩)
  refine ⟨h1, fun out h => ?_⟩
  obtain ⟨hp, hs⟩ := h2 out h
  refine ⟨hp, hs.imp_of_mem fun {a b} ha hb hn => ?_⟩
  have key : ∀ r ∈ input, ∀ i k, ks[i]? = some k → cells V r ((vals.idxOf? (num k.name)).getD (2 ^ 32 - 1)) = lineCells (textsOf V vals (xs ++ ks.map fun k => num k.name) r.2) (xs.length + i) := by
    intro r hr i k hk
    have hm := List.mem_of_getElem? hk
    obtain ⟨j, h1, h2, h3⟩ := idx_of (hks k hm)
    obtain ⟨v, e, hv⟩ := hval r hr
    obtain ⟨a, t, ht⟩ := hv _ (hks k hm)
    have hl : (textsOf V vals (xs ++ ks.map fun k => num k.name) r.2)[xs.length + i]? = some (some t) := by
      rw [textsOf, List.getElem?_map, List.getElem?_map, List.getElem?_append_right (by omega), List.getElem?_map, show xs.length + i - xs.length = i by omega, hk, Option.map_some,
        Option.map_some, Option.map_some, e, PlanGen.look_map' (hks k hm), ht]
    unfold lineCells
    rw [hl, h2, Option.getD_some]
    unfold cells
    rw [e, List.getD_eq_getElem?_getD, List.getElem?_map, List.getElem?_eq_getElem h1, Option.map_some, Option.getD_some, h3]
    unfold cellOf isNumeric
    have : v (num k.name) / 2 ^ 62 = 0 := Nat.div_eq_of_lt a
    rw [if_neg (by omega), this, ht]
    simp
  exact fun h => hn ((before_lines ks xs.length fun i k hk => ⟨key b (hp.mem_iff.1 hb) i k hk, key a (hp.mem_iff.1 ha) i k hk⟩).2 h)

end Sorting

end Trident.Sparql.Parse
