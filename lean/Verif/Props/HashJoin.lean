import Verif.Sparql.HashProofs
import Verif.Sparql.JoinSpec
/-!
# C69: hash joins

A join by a hash table returns every pair of rows that agree on the join variable, as often as the product of their multiplicities says, and nothing else.
With OPTIONAL the rows without partner are returned as well.
-/
namespace Trident.Sparql.Hash

theorem head_col {t : Tup} (h : t ≠ []) : t.head? = some (col t 0) ∧ col t 0 :: t.tail = t := by
  match t, h with
  | x :: t, _ => exact ⟨rfl, rfl⟩

theorem agree_iff {l r : Tup} (hl : l ≠ []) (hr : r ≠ []) : Spec.agree l r = true ↔ col l 0 = col r 0 := by
  unfold Spec.agree
  rw [(head_col hl).1, (head_col hr).1]; simp

/-- The pairs with one row of the right side. -/
theorem chain_bag {ok : Tup → Bool} {left : List Row} {c : Chain} {r : Row} (hleft : ∀ l ∈ left, l.2 ≠ []) (hr : r.2 ≠ []) (hk : c.key = col r.2 0)
    (hok : ∀ l ∈ left, ok l.2 = false → col l.2 0 ≠ col r.2 0)
    (hs : ∀ F, wsum c.entries F = wsum (tailsOf ok left (col r.2 0)) F) (g : Tup → Tup) (t : Tup) :
    bag ((c.entries.map fun e => (e.1 * r.1, c.key :: e.2 ++ r.2)).map fun x => (x.1, g x.2)) t =
      bag (((left.filter fun l => Spec.agree l.2 r.2).map fun l => (l.1 * r.1, l.2 ++ r.2)).map fun x => (x.1, g x.2)) t := by
  have h := hs fun tl => if g (c.key :: tl ++ r.2) = t then r.1 else 0
  have e1 : bag ((c.entries.map fun e => (e.1 * r.1, c.key :: e.2 ++ r.2)).map fun x => (x.1, g x.2)) t =
      wsum c.entries fun tl => if g (c.key :: tl ++ r.2) = t then r.1 else 0 := by
    unfold bag wsum
    rw [List.map_map, List.map_map]
    congr 1
    apply List.map_congr_left
    intro e _
    simp only [Function.comp_apply]
    split <;> simp
  rw [e1, h]
  unfold bag wsum tailsOf
  rw [List.map_map, List.map_map, List.map_map]
  have e2 : (left.filter fun r' => ok r'.2 && col r'.2 0 == col r.2 0) = left.filter fun l => Spec.agree l.2 r.2 := by
    apply List.filter_congr
    intro l hl
    rw [Bool.eq_iff_iff, agree_iff (hleft l hl) hr]
    simp only [Bool.and_eq_true, beq_iff_eq]
    constructor
    · exact fun x => x.2
    · intro x
      refine ⟨?_, x⟩
      rw [← Bool.not_eq_false]
      exact fun y => hok l hl y x
  rw [e2]
  congr 1
  apply List.map_congr_left
  intro l hl
  have hl' := List.mem_filter.1 hl
  have hkey := (agree_iff (hleft l hl'.1) hr).1 hl'.2
  simp only [Function.comp_apply]
  rw [hk, ← hkey, (head_col (hleft l hl'.1)).2]
  split <;> simp

/-- **C69 (inner join).** For all inputs with 64 bit join values the join terminates without error and returns the pairs that agree, with their multiplicities.
`ok` is the test of the domains; it may only reject rows of the left side without partner. -/
theorem C69_join (ok : Tup → Bool) (wl wr reg0 : Nat) (left right : List Row)
    (hleft : ∀ l ∈ left, l.2 ≠ []) (hright : ∀ r ∈ right, r.2 ≠ []) (hbits : ∀ l ∈ left, ∀ x ∈ l.2, x < 2 ^ 64)
    (hok : ∀ l ∈ left, ok l.2 = false → ∀ r ∈ right, Spec.agree l.2 r.2 = false) :
    ∃ out, hashJoin ok false false wl wr reg0 left right = some out ∧ ∀ t, bag out t = bag (Spec.join left right) t := by
  obtain ⟨n, tb, m, _, hb, hr, hc⟩ := build_spec ok left (by
    intro r hr
    apply hbits r hr
    match hrr : r.2, hleft r hr with
    | x :: t, _ => simp [col])
  refine ⟨_, by rw [hashJoin, hb]; rfl, ?_⟩
  intro t
  have main : ∀ (rs : List Row) (reg : Nat), (∀ r ∈ rs, r ∈ right) → bag (probe ⟨n, tb⟩ false wl reg rs).1 t = bag (Spec.join left rs) t := by
    intro rs
    induction rs with
    | nil => intro reg _; rfl
    | cons r rs ih =>
      intro reg hrs
      have hrm := hrs r (by simp)
      rw [probe, Spec.join, List.flatMap_cons, bag_append]
      rcases lookup_spec hr hc (col r.2 0) with ⟨c, e, hk, hs⟩ | ⟨e, hno⟩
      · simp only [e]
        rw [bag_append, ih _ fun x hx => hrs x (by simp [hx])]
        congr 1
        have := chain_bag hleft (hright r hrm) hk (fun l hl ho x => by
          have := hok l hl ho r hrm
          rw [(agree_iff (hleft l hl) (hright r hrm)).2 x] at this; cases this) hs id t
        simpa [Function.comp_def] using this
      · simp only [e, Bool.false_eq_true, if_false]
        rw [ih _ fun x hx => hrs x (by simp [hx]), List.filter_eq_nil_iff.2]
        · rw [List.map_nil, bag_nil, Nat.zero_add]; rfl
        · intro l hl hx
          have h1 := (agree_iff (hleft l hl) (hright r hrm)).1 hx
          cases ho : ok l.2 with
          | true => exact hno l hl ho h1
          | false => rw [hok l hl ho r hrm] at hx; cases hx
  match hz : right.getLast? with
  | none =>
    have : right = [] := List.getLast?_eq_none_iff.1 hz
    subst this
    rfl
  | some z =>
    simp only [Bool.false_eq_true, if_false, List.append_nil]
    exact main right reg0 fun _ h => h

/-- **C69 (left side optional, part).** The pairs are returned, and every row of the right side without partner, with missing values for the left side.
Missing, and wrong in the code: the first column, which is the join variable of the result, is not set for a row without partner. -/
theorem C69_left_optional_partial (ok : Tup → Bool) (wl wr reg0 : Nat) (left right : List Row)
    (hleft : ∀ l ∈ left, l.2 ≠ []) (hright : ∀ r ∈ right, r.2 ≠ []) (hbits : ∀ l ∈ left, ∀ x ∈ l.2, x < 2 ^ 64)
    (hok : ∀ l ∈ left, ok l.2 = false → ∀ r ∈ right, Spec.agree l.2 r.2 = false) :
    ∃ out, hashJoin ok true false wl wr reg0 left right = some out ∧ ∀ t,
      bag (out.map fun x => (x.1, x.2.tail)) t = bag ((Spec.join left right).map fun x => (x.1, x.2.tail)) t +
        bag ((Spec.unmatched right left).map fun r => (r.1, List.replicate wl null ++ r.2)) t := by
  obtain ⟨n, tb, m, _, hb, hr, hc⟩ := build_spec ok left (by
    intro r hr
    apply hbits r hr
    match hrr : r.2, hleft r hr with
    | x :: t, _ => simp [col])
  refine ⟨_, by rw [hashJoin, hb]; rfl, ?_⟩
  intro t
  have main : ∀ (rs : List Row) (reg : Nat), (∀ r ∈ rs, r ∈ right) →
      bag ((probe ⟨n, tb⟩ true wl reg rs).1.map fun x => (x.1, x.2.tail)) t = bag ((Spec.join left rs).map fun x => (x.1, x.2.tail)) t +
        bag ((Spec.unmatched rs left).map fun r => (r.1, List.replicate wl null ++ r.2)) t := by
    intro rs
    induction rs with
    | nil => intro reg _; rfl
    | cons r rs ih =>
      intro reg hrs
      have hrm := hrs r (by simp)
      rw [probe, Spec.join, List.flatMap_cons, List.map_append, bag_append]
      rcases lookup_spec hr hc (col r.2 0) with ⟨c, e, hk, hs⟩ | ⟨e, hno⟩
      · simp only [e]
        rw [List.map_append, bag_append, ih _ fun x hx => hrs x (by simp [hx])]
        have hb := chain_bag hleft (hright r hrm) hk (fun l hl ho x => by
          have := hok l hl ho r hrm
          rw [(agree_iff (hleft l hl) (hright r hrm)).2 x] at this; cases this) hs List.tail t
        have hu : Spec.unmatched (r :: rs) left = Spec.unmatched rs left := by
          unfold Spec.unmatched
          rw [List.filter_cons_of_neg]
          intro hall
          rw [List.all_eq_true] at hall
          -- the chain is not empty, as the key occurs
          have hmem : ∃ l ∈ left, ok l.2 = true ∧ col l.2 0 = col r.2 0 := by
            rw [← hc.keys, ← hk]
            rcases find_spec hr (col r.2 0) with ⟨s, c', e', hm', hk', _, _⟩ | ⟨e', _⟩
            · rw [hk, ← hk']; exact List.mem_map_of_mem hm'
            · rw [lookup, e'] at e; cases e
          obtain ⟨l, hl, _, hkl⟩ := hmem
          have := hall l hl
          rw [(agree_iff (hright r hrm) (hleft l hl)).2 hkl.symm] at this
          cases this
        rw [hu, hb]
        show _ + (bag _ t + _) = _ + bag _ t + _
        rw [Nat.add_assoc]; rfl
      · simp only [e, if_true]
        have hnil : (left.filter fun l => Spec.agree l.2 r.2) = [] := by
          rw [List.filter_eq_nil_iff]
          intro l hl hx
          have h1 := (agree_iff (hleft l hl) (hright r hrm)).1 hx
          cases ho : ok l.2 with
          | true => exact hno l hl ho h1
          | false => rw [hok l hl ho r hrm] at hx; cases hx
        have hu : Spec.unmatched (r :: rs) left = r :: Spec.unmatched rs left := by
          unfold Spec.unmatched
          rw [List.filter_cons_of_pos]
          rw [List.all_eq_true]
          intro l hl
          have h1 := List.filter_eq_nil_iff.1 hnil l hl
          unfold Spec.agree at h1 ⊢
          simp only [Bool.not_eq_true', beq_eq_false_iff_ne, ne_eq]
          intro x
          exact h1 (by simp [x])
        rw [hnil, hu, List.map_cons, bag_cons, ih _ fun x hx => hrs x (by simp [hx]), List.map_cons, bag_cons]
        simp only [List.map_nil, bag_nil, Nat.zero_add, List.cons_append, List.tail_cons]
        show _ + (bag _ t + _) = bag _ t + (_ + _)
        unfold Spec.join
        exact Nat.add_left_comm _ _ _
  match hz : right.getLast? with
  | none =>
    have : right = [] := List.getLast?_eq_none_iff.1 hz
    subst this
    rfl
  | some z =>
    simp only [Bool.false_eq_true, if_false, List.append_nil]
    exact main right reg0 fun _ h => h

/-! ## Examples -/

/-- The left side: the keys 1, 1025 and 2049 share both slots of the first table. -/
def exLeft : List Row := [(1, [5, 50]), (2, [7, 70]), (1, [5, 51]), (3, [5, 50]), (1, [9, 90])]

def exRight : List Row := [(2, [5, 500]), (1, [6, 600]), (1, [7, 700]), (1, [5, 501])]

example : ∃ out, hashJoin (fun _ => true) false false 1 1 0 exLeft exRight = some out ∧ ∀ t, bag out t = bag (Spec.join exLeft exRight) t :=
  C69_join _ 1 1 0 exLeft exRight (by decide +kernel) (by decide +kernel) (by decide +kernel) (by simp)

example : hashJoin (fun _ => true) false false 1 1 0 exLeft exRight =
    some [(2, [5, 51, 5, 500]), (8, [5, 50, 5, 500]), (2, [7, 70, 7, 700]), (1, [5, 51, 5, 501]), (4, [5, 50, 5, 501])] := by decide +kernel

example := C69_left_optional_partial (fun _ => true) 1 1 0 exLeft exRight (by decide +kernel) (by decide +kernel) (by decide +kernel) (by simp)

/-- Keys that collide in both slots are moved into larger tables (here from 16 to 32 slots). -/
example : ([⟨0, [(1, [10])]⟩, ⟨64, [(1, [11])]⟩, ⟨128, [(1, [12])]⟩].foldlM (fun T c => insert depth c T) (⟨8, fun _ => none⟩ : Table)).map
    (fun T => (T.n, lookup T 0, lookup T 64, lookup T 128)) = some (16, some ⟨0, [(1, [10])]⟩, some ⟨64, [(1, [11])]⟩, some ⟨128, [(1, [12])]⟩) := by decide +kernel

/-! ## What the code does otherwise -/

/-- The right row with the value 6 has no partner: it is returned with the join variable 5, the one of the pair before. -/
theorem C69_left_optional_violated :
    hashJoin (fun _ => true) true false 1 1 0 [(1, [5, 50])] [(1, [5, 500]), (1, [6, 600])] =
      some [(1, [5, 50, 5, 500]), (1, [5, null, 6, 600])] := by decide +kernel

/-- With the right side optional: of two left rows with the value 7 and without partner only one is returned, and with the join variable 5. -/
theorem C69_right_optional_violated :
    hashJoin (fun _ => true) false true 1 1 0 [(1, [5, 50]), (1, [7, 70]), (1, [7, 71])] [(1, [5, 500])] =
      some [(1, [5, 50, 5, 500]), (1, [5, 71, 5, null])] := by decide +kernel

/-- With the right side optional and without rows nothing is returned. -/
theorem C69_right_optional_empty_violated (ok : Tup → Bool) (wl wr reg0 : Nat) (left out : List Row)
    (h : hashJoin ok false true wl wr reg0 left [] = some out) : out = [] := by
  unfold hashJoin at h
  obtain ⟨T, _, rfl⟩ := Option.map_eq_some_iff.1 h
  rfl

example : hashJoin (fun _ => true) false true 1 1 0 exLeft [] = some [] := by decide +kernel

end Trident.Sparql.Hash
