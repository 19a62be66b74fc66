import Verif.Iter.TermProofs
import Verif.Iter.Concrete
import Verif.Query.Perm
import Verif.Update.StatsProofs
/-!
# C19: the list of keys of a graph, with updates

The elements of a term iterator are (key, number of triples).  `IsTermList ks out`
(Verif/Spec.lean): `out` has every key of `ks` once, in order, with its number of occurrences.
-/
namespace Trident

/-- C19 (additions): merging any number of term lists gives the term list of all keys together. -/
theorem C19_additions (sort : Sorter) (hsort : ∀ cs, Composite.SortSpecD (famItr cs) (sort cs))
    (xs : List (Obj × List Int)) (h : ∀ x ∈ xs, ∃ l, x.1.Returns l ∧ IsTermList x.2 l) :
    ∃ out, (Obj.cterm sort (xs.map (·.1))).Returns out ∧ IsTermList (xs.flatMap (·.2)) out := by
  have : ∃ ys : List (Obj × List Int × List Pair), ys.map (fun y => (y.1, y.2.1)) = xs ∧
      ∀ y ∈ ys, y.1.Returns y.2.2 ∧ IsTermList y.2.1 y.2.2 := by
    induction xs with
    | nil => exact ⟨[], rfl, by simp⟩
    | cons x xs ih =>
      obtain ⟨ys, h1, h2⟩ := ih (fun y hy => h y (by simp [hy]))
      obtain ⟨l, h3, h4⟩ := h x (by simp)
      refine ⟨(x.1, x.2, l) :: ys, by simp [h1], fun y hy => ?_⟩
      rcases List.mem_cons.1 hy with rfl | hy
      · exact ⟨h3, h4⟩
      · exact h2 y hy
  obtain ⟨ys, rfl, h2⟩ := this
  obtain ⟨out, ho⟩ := exists_isSum ((ys.map fun y => (y.1, y.2.2)).flatMap (·.2))
  refine ⟨out, ?_, ?_⟩
  · have := cterm_returns hsort (ys.map fun y => (y.1, y.2.2)) (by
      intro x hx
      obtain ⟨y, hy, rfl⟩ := List.mem_map.1 hx
      exact ⟨(h2 y hy).1, (h2 y hy).2.1⟩) ho
    rw [show objs (ys.map fun y => (y.1, y.2.2)) = (ys.map fun y => (y.1, y.2.1)).map (·.1) from by
      simp [objs, List.map_map]] at this
    exact this
  · have := isTermList_flatMap (ys := ys.map (·.2)) (by
      intro y hy
      obtain ⟨x, hx, rfl⟩ := List.mem_map.1 hy
      exact (h2 x hx).2) (out := out) (by rw [List.flatMap_map] at ho ⊢; exact ho)
    rw [List.flatMap_map] at this ⊢
    exact this

/-- C19 (deletions): subtracting the term list of a non-empty set of deleted triples gives the term
list of the remaining ones: a key disappears exactly when none of its triples remain. -/
theorem C19_deletions (main rm : Obj) (ks ds ks' : List Int) (ms rs : List Pair)
    (hm : main.Returns ms) (hms : IsTermList ks ms) (hr : rm.Returns rs) (hrs : IsTermList ds rs)
    (hid : Idem rm.I) (hst : rm.Steady) (hne : ds ≠ []) (hp : ks.Perm (ds ++ ks'))
    (fuel : Nat) (h1 : ms.length < fuel) (h2 : rs.length ≤ fuel) :
    ∃ out, (Obj.rmterm fuel main rm).Returns out ∧ IsTermList ks' out := by
  refine ⟨_, rmterm_returns hm hr ?_ hid hst (subtract_ok hms hrs hp) h1 h2, subtract_isTermList hms hrs hp⟩
  rintro rfl
  cases ds with
  | nil => exact hne rfl
  | cons d ds => simpa using (hrs.2.1 d).2 (by simp)

/-- The differential index `d` holds the batch `u`: for every order it lists the keys of its triples. -/
structure DiffTerms.Of (u : Update) (d : DiffTerms) : Prop where
  isAdd : d.isAdd = true ↔ ∃ ts, u = .add ts
  list : ∀ o : Order, ∃ l, (d.list o.idx).Returns l ∧ IsTermList (u.triples.map o.key) l ∧
    Idem (d.list o.idx).I ∧ (d.list o.idx).Steady

theorem length_le_of_nodup_subset {α : Type} [DecidableEq α] {l l' : List α} (h : l.Nodup) (hs : ∀ x ∈ l, x ∈ l') :
    l.length ≤ l'.length := by
  induction l generalizing l' with
  | nil => simp
  | cons a l ih =>
    rw [List.nodup_cons] at h
    have := ih h.2 (l' := l'.erase a) (fun x hx => by
      have hne : x ≠ a := fun e => h.1 (by rw [← e]; exact hx)
      rw [List.mem_erase_of_ne hne]; exact hs x (by simp [hx]))
    have ha := hs a (by simp)
    rw [List.length_erase_of_mem ha] at this
    have := List.length_pos_of_mem ha
    simp only [List.length_cons]
    omega

theorem IsTermList.length_le {ks o} (h : IsTermList ks o) : o.length ≤ ks.length := by
  have hn : (o.map (·.1)).Nodup := h.1.imp fun h => by omega
  have := length_le_of_nodup_subset hn (fun x hx => (h.2.1 x).1 hx)
  simpa using this

/-- What `finalItr` lists at some point of the loop. -/
def FinalItr.Lists (ks : List Int) : FinalItr → Prop
  | .plain o => ∃ l, o.Returns l ∧ IsTermList ks l
  | .comp cs => ∃ xs : List (Obj × List Int), cs = xs.map (·.1) ∧ ks.Perm (xs.flatMap (·.2)) ∧
      ∀ x ∈ xs, ∃ l, x.1.Returns l ∧ IsTermList x.2 l

theorem FinalItr.Lists.obj {sort : Sorter} (hsort : ∀ cs, Composite.SortSpecD (famItr cs) (sort cs)) {ks f}
    (h : FinalItr.Lists ks f) : ∃ l, (f.obj sort).Returns l ∧ IsTermList ks l := by
  cases f with
  | plain o => exact h
  | comp cs =>
    obtain ⟨xs, rfl, h1, h2⟩ := h
    obtain ⟨out, h3, h4⟩ := C19_additions sort hsort xs h2
    exact ⟨out, h3, h4.perm h1.symm⟩

theorem perm_filter_split {α : Type} [DecidableEq α] {g ts : List α} (hg : g.Nodup) (ht : ts.Nodup)
    (hs : ∀ t ∈ ts, t ∈ g) : g.Perm (ts ++ g.filter fun t => t ∉ ts) := by
  have h1 : (g.filter fun t => decide (t ∈ ts)).Perm ts := by
    refine (List.perm_ext_iff_of_nodup (hg.filter _) ht).2 fun a => ?_
    simp only [List.mem_filter, decide_eq_true_eq]
    exact ⟨fun h => h.2, fun h => ⟨hs a h, h⟩⟩
  have := List.filter_append_perm (fun t => decide (t ∈ ts)) g
  refine this.symm.trans ?_
  refine (h1.append_right _).trans ?_
  simp

theorem Update.apply_nodup {g : List Triple} {u : Update} (hg : g.Nodup) (hu : u.Fresh g) : (u.apply g).Nodup := by
  cases u with
  | add ts =>
    rw [Update.apply, List.nodup_append]
    exact ⟨hg, hu.1, fun a ha b hb e => hu.2 b hb (e ▸ ha)⟩
  | del ts => exact hg.filter _

/-- The updates `uds` as they were written one after the other: each lists its keys, and the number stored with it (`getNUniqueKeys`) is
what `UpdateStats` counted against the querier's list of keys at that moment. -/
inductive Recorded (sort : Sorter) (fuel : Nat) (o : Order) (base : Obj) : List (Update × DiffTerms) → Prop
  | nil : Recorded sort fuel o base []
  | snoc {uds u d l} : Recorded sort fuel o base uds → d.Of u → (d.list o.idx).Returns l → IsTermList (u.triples.map o.key) l →
      d.nkeys o.idx = Stats.newKeys fuel d.isAdd (getTermList sort fuel o.idx base (uds.map (·.2))) l →
      Recorded sort fuel o base (uds ++ [(u, d)])

/-- Every update of the history that has triples brings a key into the graph or makes one disappear. -/
def ChangesKeys (o : Order) (g : List Triple) : List Update → Prop
  | [] => True
  | u :: us => (u.triples = [] ∨ ∃ k, ¬ (k ∈ g.map o.key ↔ k ∈ (u.apply g).map o.key)) ∧ ChangesKeys o (u.apply g) us

theorem applyAll_snoc (g : List Triple) (us : List Update) (u : Update) : applyAll g (us ++ [u]) = u.apply (applyAll g us) := by
  simp [applyAll, List.foldl_append]

theorem freshAll_snoc {g : List Triple} {us : List Update} {u : Update} (h : FreshAll g (us ++ [u])) :
    FreshAll g us ∧ u.Fresh (applyAll g us) := by
  induction us generalizing g with
  | nil => exact ⟨trivial, h.1⟩
  | cons v us ih => exact ⟨⟨h.1, (ih h.2).1⟩, (ih h.2).2⟩

theorem changesKeys_snoc {o : Order} {g : List Triple} {us : List Update} {u : Update} (h : ChangesKeys o g (us ++ [u])) :
    ChangesKeys o g us ∧ (u.triples = [] ∨ ∃ k, ¬ (k ∈ (applyAll g us).map o.key ↔ k ∈ (u.apply (applyAll g us)).map o.key)) := by
  induction us generalizing g with
  | nil => exact ⟨trivial, h.1⟩
  | cons v us ih => exact ⟨⟨h.1, (ih h.2).1⟩, (ih h.2).2⟩

theorem apply_length_le (g : List Triple) (u : Update) : (u.apply g).length ≤ g.length + u.triples.length := by
  cases u with
  | add ts => simp [Update.apply, Update.triples]
  | del ts =>
    have := List.length_filter_le (fun t => decide (t ∉ ts)) g
    simp only [Update.apply]; omega

theorem applyAll_length_le (us : List Update) (g : List Triple) : (applyAll g us).length ≤ g.length + (us.map fun u => u.triples.length).sum := by
  induction us generalizing g with
  | nil => simp [applyAll]
  | cons u us ih =>
    have h1 := ih (u.apply g)
    have h2 := apply_length_le g u
    simp only [List.map_cons, List.sum_cons]
    have : applyAll g (u :: us) = applyAll (u.apply g) us := rfl
    rw [this]; omega

theorem applyAll_nodup {us : List Update} {g : List Triple} (hg : g.Nodup) (h : FreshAll g us) : (applyAll g us).Nodup := by
  induction us generalizing g with
  | nil => exact hg
  | cons u us ih => exact ih (Update.apply_nodup hg h.1) h.2

theorem FinalItr.Lists.add {sort : Sorter} {fuel : Nat} {o : Order} {ks : List Int} {f : FinalItr} {ts : List Triple} {d : DiffTerms}
    (hf : FinalItr.Lists ks f) (hd : d.Of (.add ts)) (hk : d.nkeys o.idx > 0) :
    FinalItr.Lists (ks ++ ts.map o.key) (termListStep sort fuel o.idx f d) := by
  unfold termListStep
  rw [if_pos hk, if_pos (hd.isAdd.2 ⟨ts, rfl⟩)]
  obtain ⟨l, h1, h2, -⟩ := hd.list o
  cases f with
  | plain b =>
    refine ⟨[(b, ks), (d.list o.idx, ts.map o.key)], rfl, by simp, ?_⟩
    intro x hx
    simp only [List.mem_cons, List.not_mem_nil, or_false] at hx
    rcases hx with rfl | rfl
    · exact hf
    · exact ⟨l, h1, h2⟩
  | comp cs =>
    obtain ⟨xs, rfl, h3, h4⟩ := hf
    refine ⟨xs ++ [(d.list o.idx, ts.map o.key)], by simp, ?_, ?_⟩
    · simp only [List.flatMap_append, List.flatMap_singleton]
      exact h3.append_right _
    · intro x hx
      rcases List.mem_append.1 hx with hx | hx
      · exact h4 x hx
      · rw [List.mem_singleton.1 hx]; exact ⟨l, h1, h2⟩

theorem Update.exists_add_of_isAdd {u : Update} {d : DiffTerms} (hd : d.Of u) : (d.isAdd = true ∧ ∃ ts, u = .add ts) ∨
    (d.isAdd = false ∧ ∃ ts, u = .del ts) := by
  cases u with
  | add ts => exact .inl ⟨hd.isAdd.2 ⟨ts, rfl⟩, ts, rfl⟩
  | del ts =>
    refine .inr ⟨?_, ts, rfl⟩
    cases h : d.isAdd with
    | false => rfl
    | true => obtain ⟨_, e⟩ := hd.isAdd.1 h; simp at e

theorem filter_length_pos {α : Type} {l : List α} {p : α → Bool} {x : α} (hx : x ∈ l) (hp : p x = true) : 0 < (l.filter p).length :=
  List.length_pos_of_mem (List.mem_filter.2 ⟨hx, hp⟩)

/-- What the number stored with an update means, when the list of keys before it is right: it is 0 exactly when the set of keys stays
the same (additions; deletions of subjects). -/
theorem newKeys_pos_iff {o : Order} {g : List Triple} {u : Update} {ex : Obj} {L l : List Pair} {fuel : Nat} (add : Bool)
    (hadd : (add = true ∧ ∃ ts, u = .add ts) ∨ (add = false ∧ ∃ ts, u = .del ts)) (hid : Idem ex.I) (hr : ex.Returns L)
    (hL : IsTermList (g.map o.key) L) (hl : IsTermList (u.triples.map o.key) l) (hlt : ∀ t ∈ u.triples, o.key t < 2 ^ 32 - 1)
    (hg : g.Nodup) (hu : u.Fresh g) (hf : L.length ≤ fuel) :
    0 < Stats.newKeys fuel add ex l ↔ ∃ k, ¬ (k ∈ g.map o.key ↔ k ∈ (u.apply g).map o.key) := by
  rcases hadd with ⟨rfl, ts, rfl⟩ | ⟨rfl, ts, rfl⟩
  · rw [newKeys_add hid hr hL.1 hl.1 (fun k hk => by
      have := (hl.2.1 k.1).1 (List.mem_map_of_mem hk)
      obtain ⟨t, ht, e⟩ := List.mem_map.1 this
      rw [← e]; exact hlt t ht) fuel hf]
    simp only [Update.apply, List.map_append, List.mem_append]
    constructor
    · intro h
      obtain ⟨k, hk⟩ := List.exists_mem_of_length_pos h
      obtain ⟨h1, h2⟩ := List.mem_filter.1 hk
      have h3 : k.1 ∉ g.map o.key := fun h' => by simpa using absurd ((hL.2.1 k.1).2 h') (by simpa using h2)
      exact ⟨k.1, fun h' => h3 (h'.2 (.inr ((hl.2.1 k.1).1 (List.mem_map_of_mem h1))))⟩
    · rintro ⟨k, hk⟩
      have h1 : k ∉ g.map o.key := fun h => hk ⟨fun _ => .inl h, fun _ => h⟩
      have h2 : k ∈ ts.map o.key := by
        rcases Decidable.em (k ∈ ts.map o.key) with h | h
        · exact h
        · exact absurd ⟨fun h' => absurd h' h1, fun h' => h'.elim id (fun h' => absurd h' h)⟩ hk
      obtain ⟨q, hq, e⟩ := List.mem_map.1 ((hl.2.1 k).2 h2)
      refine filter_length_pos hq ?_
      rw [decide_eq_true_eq, e]
      exact fun h => h1 ((hL.2.1 k).1 h)
  · have hp := (perm_filter_split hg hu.1 hu.2).map o.key
    rw [List.map_append] at hp
    have hsub : ∀ k, k ∈ ts.map o.key → k ∈ g.map o.key := fun k hk => hp.mem_iff.2 (by simp [List.mem_append.2 (.inl hk)])
    have hc : ∀ k, (g.map o.key).count k = (ts.map o.key).count k + (((Update.del ts).apply g).map o.key).count k := fun k => by
      rw [hp.count_eq, List.count_append]; rfl
    rw [newKeys_rm hid hr hL.1 hl.1 (fun k hk => (hL.2.1 k.1).2 (hsub _ ((hl.2.1 k.1).1 (List.mem_map_of_mem hk)))) fuel hf]
    constructor
    · intro h
      obtain ⟨k, hk⟩ := List.exists_mem_of_length_pos h
      obtain ⟨h1, h2⟩ := List.mem_filter.1 hk
      rw [decide_eq_true_eq] at h2
      have e1 := hl.2.2 k h1
      have e2 := hL.2.2 k h2
      have e3 := hc k.1
      simp only [Update.triples] at e1
      refine ⟨k.1, fun hiff => ?_⟩
      have := hiff.1 ((hL.2.1 k.1).1 (List.mem_map_of_mem h2))
      have := List.count_pos_iff.2 this
      omega
    · rintro ⟨k, hk⟩
      have h1 : k ∉ ((Update.del ts).apply g).map o.key := fun h => hk ⟨fun _ => h, fun _ => hp.mem_iff.2 (List.mem_append.2 (.inr h))⟩
      have h2 : k ∈ g.map o.key := by
        rcases Decidable.em (k ∈ g.map o.key) with h | h
        · exact h
        · exact absurd ⟨fun h' => absurd h' h, fun h' => absurd h' h1⟩ hk
      have h3 : k ∈ ts.map o.key := (List.mem_append.1 (hp.mem_iff.1 h2)).resolve_right h1
      obtain ⟨q, hq, e⟩ := List.mem_map.1 ((hl.2.1 k).2 h3)
      obtain ⟨q', hq', e'⟩ := List.mem_map.1 ((hL.2.1 k).2 h2)
      have e1 := hl.2.2 q hq
      have e2 := hL.2.2 q' hq'
      have e3 := hc k
      have e4 := List.count_eq_zero.2 h1
      simp only [Update.triples] at e1
      have : q = q' := Prod.ext (by rw [e, e']) (by rw [e] at e1; rw [e'] at e2; omega)
      refine filter_length_pos hq ?_
      rw [decide_eq_true_eq, this]
      exact hq'

theorem recorded_lists {sort : Sorter} (hsort : ∀ cs, Composite.SortSpecD (famItr cs) (sort cs)) {o : Order} {g : List Triple} (hg : g.Nodup)
    {base : Obj} {l : List Pair} (hid : Idem base.I) (hb : base.Returns l) (hl : IsTermList (g.map o.key) l) {fuel : Nat}
    {uds : List (Update × DiffTerms)} (hr : Recorded sort fuel o base uds)
    (hus : FreshAll g (uds.map (·.1))) (hlt : ∀ x ∈ uds, ∀ t ∈ x.1.triples, o.key t < 2 ^ 32 - 1)
    (hch : ChangesKeys o g (uds.map (·.1)))
    (hdel : o.key = Order.spo.key ∨ ∀ x ∈ uds, ∃ ts, x.1 = .add ts)
    (hf : g.length + (uds.map fun x => x.1.triples.length).sum < fuel) :
    FinalItr.Lists ((applyAll g (uds.map (·.1))).map o.key) ((uds.map (·.2)).foldl (termListStep sort fuel o.idx) (.plain base)) := by
  induction hr with
  | nil => exact ⟨l, hb, hl⟩
  | @snoc uds u d lu _ hd hlu hlu2 hn ih =>
    rw [List.map_append] at hus hch
    obtain ⟨hus1, hu⟩ := freshAll_snoc hus
    obtain ⟨hch1, hcu⟩ := changesKeys_snoc hch
    rw [List.map_append, List.sum_append] at hf
    simp only [List.map_cons, List.map_nil, List.sum_cons, List.sum_nil] at hf hus1 hu hch1 hcu
    have h := ih hus1 (fun x hx => hlt x (by simp [hx])) hch1 (hdel.imp id fun h x hx => h x (by simp [hx])) (by omega)
    obtain ⟨L, hL1, hL2⟩ := h.obj hsort
    have hg' := applyAll_nodup hg hus1
    have hlen := applyAll_length_le (uds.map (·.1)) g
    rw [List.map_map] at hlen
    have hlen' : ((fun u => u.triples.length) ∘ fun x : Update × DiffTerms => x.1) = fun x => x.1.triples.length := rfl
    rw [hlen'] at hlen
    have hLl := hL2.length_le
    rw [List.length_map] at hLl
    rw [List.map_append, List.map_cons, List.map_nil, List.map_append, List.map_cons, List.map_nil, List.foldl_append, List.foldl_cons,
      List.foldl_nil, applyAll_snoc]
    by_cases hk : d.nkeys o.idx > 0
    · rcases Update.exists_add_of_isAdd hd with ⟨hadd, ts, rfl⟩ | ⟨hadd, ts, rfl⟩
      · have := h.add (sort := sort) (fuel := fuel) (o := o) hd hk
        simpa only [Update.apply, List.map_append] using this
      · unfold termListStep
        rw [if_pos hk, if_neg (by simp [hadd])]
        have hsp : o.key = Order.spo.key := by
          rcases hdel with h | h
          · exact h
          · obtain ⟨_, h⟩ := h (.del ts, d) (by simp); simp at h
        obtain ⟨rs, r1, r2, r3, r4⟩ := hd.list .spo
        have hp : ((applyAll g (uds.map (·.1))).map o.key).Perm
            (ts.map Order.spo.key ++ ((Update.del ts).apply (applyAll g (uds.map (·.1)))).map o.key) := by
          rw [← hsp, ← List.map_append]
          exact (perm_filter_split hg' hu.1 hu.2).map _
        have l2 := r2.length_le
        rw [List.length_map] at l2
        refine C19_deletions _ _ _ _ _ _ _ hL1 hL2 r1 r2 r3 r4 ?_ hp fuel (by omega) (by omega)
        intro h0
        have h0' : ts = [] := List.map_eq_nil_iff.1 h0
        subst h0'
        have : lu = [] := by
          cases lu with
          | nil => rfl
          | cons x xs => have := (hlu2.2.1 x.1).1 (by simp); simp [Update.triples] at this
        rw [hn, hadd, this, newKeys_rm (termList_idem sort fuel o.idx hid _) hL1 hL2.1 .nil (by simp) fuel (by omega)] at hk
        simp at hk
    · have hu0 : u.triples = [] := by
        rcases hcu with h0 | h0
        · exact h0
        · exfalso
          rw [hn] at hk
          exact hk ((newKeys_pos_iff (L := L) d.isAdd (Update.exists_add_of_isAdd hd) (termList_idem sort fuel o.idx hid _) hL1 hL2 hlu2
            (fun t ht => hlt (u, d) (by simp) t ht) hg' hu (by omega)).2 h0)
      unfold termListStep
      rw [if_neg hk]
      have : u.apply (applyAll g (uds.map (·.1))) = applyAll g (uds.map (·.1)) := by
        cases u with
        | add ts => simp only [Update.triples] at hu0; simp [Update.apply, hu0]
        | del ts => simp only [Update.triples] at hu0; simp [Update.apply, hu0]
      rw [this]; exact h

/-- C19: the querier's list of the keys of an order is the term list of the graph after any history of fresh updates, if every update
changes the set of keys, and the order starts with the subject or there are only additions.
(The full claim, for all orders and histories, is false: see the theorems `.._violated` below.) -/
theorem C19_term_list_partial (sort : Sorter) (hsort : ∀ cs, Composite.SortSpecD (famItr cs) (sort cs))
    (o : Order) (g : List Triple) (hg : g.Nodup) (base : Obj) (l : List Pair) (hid : Idem base.I) (hb : base.Returns l)
    (hl : IsTermList (g.map o.key) l) (fuel : Nat) (uds : List (Update × DiffTerms)) (hr : Recorded sort fuel o base uds)
    (hus : FreshAll g (uds.map (·.1))) (hlt : ∀ x ∈ uds, ∀ t ∈ x.1.triples, o.key t < 2 ^ 32 - 1)
    (hch : ChangesKeys o g (uds.map (·.1)))
    (hdel : o.key = Order.spo.key ∨ ∀ x ∈ uds, ∃ ts, x.1 = .add ts)
    (hf : g.length + (uds.map fun x => x.1.triples.length).sum < fuel) :
    ∃ out, (getTermList sort fuel o.idx base (uds.map (·.2))).Returns out ∧
      IsTermList ((applyAll g (uds.map (·.1))).map o.key) out :=
  (recorded_lists hsort hg hid hb hl hr hus hlt hch hdel hf).obj hsort

theorem newKeys_add_zero {o : Order} {g : List Triple} {ts : List Triple} {ex : Obj} {L l : List Pair} {fuel : Nat}
    (hid : Idem ex.I) (hr : ex.Returns L) (hL : (L.map (·.1)).Pairwise (· < ·)) (hLg : ∀ k, k ∈ L.map (·.1) ↔ k ∈ g.map o.key)
    (hl : IsTermList (ts.map o.key) l) (hlt : ∀ t ∈ ts, o.key t < 2 ^ 32 - 1) (hf : L.length ≤ fuel)
    (h0 : Stats.newKeys fuel true ex l = 0) : ∀ k ∈ ts.map o.key, k ∈ g.map o.key := by
  intro k hk
  rw [newKeys_add hid hr hL hl.1 (fun k hk => by
    have := (hl.2.1 k.1).1 (List.mem_map_of_mem hk)
    obtain ⟨t, ht, e⟩ := List.mem_map.1 this
    rw [← e]; exact hlt t ht) fuel hf] at h0
  obtain ⟨q, hq, e⟩ := List.mem_map.1 ((hl.2.1 k).2 hk)
  rcases Decidable.em (k ∈ g.map o.key) with h | h
  · exact h
  · have := filter_length_pos (p := fun k => decide (k.1 ∉ L.map (·.1))) hq (by
      rw [decide_eq_true_eq, e]; exact fun h' => h ((hLg k).1 h'))
    rw [h0] at this
    exact absurd this (Nat.lt_irrefl 0)

/-- C19: after any history of additions the querier lists exactly the keys of the graph, each once and in order; the counts are never
too high.  (They can be too low: `C19_count_violated`.) -/
theorem C19_added_keys_partial (sort : Sorter) (hsort : ∀ cs, Composite.SortSpecD (famItr cs) (sort cs))
    (o : Order) (g : List Triple) (base : Obj) (l : List Pair) (hid : Idem base.I) (hb : base.Returns l)
    (hl : IsTermList (g.map o.key) l) (fuel : Nat) (uds : List (Update × DiffTerms)) (hr : Recorded sort fuel o base uds)
    (hadd : ∀ x ∈ uds, ∃ ts, x.1 = .add ts) (hlt : ∀ x ∈ uds, ∀ t ∈ x.1.triples, o.key t < 2 ^ 32 - 1)
    (hf : g.length + (uds.map fun x => x.1.triples.length).sum < fuel) :
    ∃ out, (getTermList sort fuel o.idx base (uds.map (·.2))).Returns out ∧ (out.map (·.1)).Pairwise (· < ·) ∧
      (∀ k, k ∈ out.map (·.1) ↔ k ∈ (applyAll g (uds.map (·.1))).map o.key) ∧
      ∀ q ∈ out, 0 < q.2 ∧ q.2 ≤ ((applyAll g (uds.map (·.1))).map o.key).count q.1 := by
  have key : ∃ ks, ks.Sublist ((applyAll g (uds.map (·.1))).map o.key) ∧ (∀ k ∈ (applyAll g (uds.map (·.1))).map o.key, k ∈ ks) ∧
      FinalItr.Lists ks ((uds.map (·.2)).foldl (termListStep sort fuel o.idx) (.plain base)) := by
    induction hr with
    | nil => exact ⟨_, List.Sublist.refl _, fun _ h => h, l, hb, hl⟩
    | @snoc uds u d lu _ hd hlu hlu2 hn ih =>
      rw [List.map_append, List.sum_append] at hf
      simp only [List.map_cons, List.map_nil, List.sum_cons, List.sum_nil] at hf
      obtain ⟨ks, h1, h2, h3⟩ := ih (fun x hx => hadd x (by simp [hx])) (fun x hx => hlt x (by simp [hx])) (by omega)
      obtain ⟨ts, e⟩ := hadd (u, d) (by simp)
      have e' : u = .add ts := e
      subst e'
      obtain ⟨L, hL1, hL2⟩ := h3.obj hsort
      have hlen := applyAll_length_le (uds.map (·.1)) g
      rw [List.map_map] at hlen
      have hlen' : ((fun u => u.triples.length) ∘ fun x : Update × DiffTerms => x.1) = fun x => x.1.triples.length := rfl
      rw [hlen'] at hlen
      have hLl := hL2.length_le
      have := h1.length_le
      rw [List.length_map] at this
      rw [List.map_append, List.map_cons, List.map_nil, List.map_append, List.map_cons, List.map_nil, List.foldl_append, List.foldl_cons,
        List.foldl_nil, applyAll_snoc]
      simp only [Update.apply, List.map_append]
      by_cases hk : d.nkeys o.idx > 0
      · refine ⟨ks ++ ts.map o.key, h1.append (List.Sublist.refl _), fun k hk => ?_, h3.add hd hk⟩
        rcases List.mem_append.1 hk with hk | hk
        · exact List.mem_append.2 (.inl (h2 k hk))
        · exact List.mem_append.2 (.inr hk)
      · refine ⟨ks, h1.trans (List.sublist_append_left _ _), fun k hk' => ?_, ?_⟩
        · rcases List.mem_append.1 hk' with hk' | hk'
          · exact h2 k hk'
          · refine h2 k (newKeys_add_zero (L := L) (l := lu) (fuel := fuel) (termList_idem sort fuel o.idx hid (uds.map Prod.snd)) hL1 hL2.1
              (fun k => (hL2.2.1 k).trans ⟨fun h => h1.subset h, fun h => h2 k h⟩) hlu2 (fun t ht => hlt (.add ts, d) (by simp) t ht)
              (by omega) ?_ k hk')
            rw [hd.isAdd.2 ⟨ts, rfl⟩] at hn
            rw [← hn]; omega
        · unfold termListStep
          rw [if_neg hk]; exact h3
  obtain ⟨ks, h1, h2, h3⟩ := key
  obtain ⟨out, o1, o2⟩ := h3.obj hsort
  refine ⟨out, o1, o2.1, fun k => (o2.2.1 k).trans ⟨fun h => h1.subset h, fun h => h2 k h⟩, fun q hq => ⟨?_, ?_⟩⟩
  · exact o2.pos q hq
  · rw [o2.2.2 q hq]
    exact_mod_cast h1.count_le q.1

/-! ## Concrete cases -/

theorem keys_returns (l : List Pair) : (Obj.keys l).Returns l := by
  have : ∀ (l : List Pair) p, Yields (Obj.keys l).I (l, p) l := by
    intro l
    induction l with
    | nil => intro p; exact .done rfl
    | cons x l ih => intro p; exact .step (I := (Obj.keys (x :: l)).I) rfl (ih x)
  exact this l _

/-- The keys of an update, as its tree lists them. -/
def diffTerms (add : Bool) (spo other : List Pair) : DiffTerms where
  isAdd := add
  nkeys i := if i = 0 ∨ i = 3 then spo.length else other.length
  list i := if i = 0 ∨ i = 3 then Obj.keys spo else Obj.keys other

/-- C19 is false for other orders after a deletion: the code subtracts the subjects whatever the
order.  Here the graph is (1 2 3), (1 5 3) and (1 2 3) is deleted: the keys of POS should be 5 alone,
but 2 is still listed. -/
theorem C19_deletions_violated :
    let g : List Triple := [⟨1, 2, 3⟩, ⟨1, 5, 3⟩]
    let u : Update := .del [⟨1, 2, 3⟩]
    u.Fresh g ∧ IsTermList (g.map Order.pos.key) [(2, 1), (5, 1)] ∧
    IsTermList (u.triples.map Order.spo.key) [(1, 1)] ∧ IsTermList (u.triples.map Order.pos.key) [(2, 1)] ∧
    (getTermList msort 9 Order.pos.idx (Obj.keys [(2, 1), (5, 1)]) [diffTerms false [(1, 1)] [(2, 1)]]).Returns
      [(2, 1), (5, 1)] ∧
    ¬ IsTermList ((u.apply g).map Order.pos.key) [(2, 1), (5, 1)] := by
  refine ⟨⟨by decide, by decide⟩, ⟨by decide, ?_, by decide⟩, ⟨by decide, ?_, by decide⟩, ⟨by decide, ?_, by decide⟩, ?_, ?_⟩
  · simp [Order.key, Order.positions, Triple.at]
  · simp [Update.triples, Order.key, Order.positions, Triple.at]
  · simp [Update.triples, Order.key, Order.positions, Triple.at]
  · show Yields _ _ _
    rw [yields_cons, yields_cons, yields_nil]
    decide +kernel
  · intro h
    have := (h.2.1 2).1 (by decide)
    revert this
    decide

theorem isTermList_iff {ks : List Int} {out : List Pair} : IsTermList ks out ↔
    (out.map (·.1)).Pairwise (· < ·) ∧ ((∀ k ∈ out.map (·.1), k ∈ ks) ∧ ∀ k ∈ ks, k ∈ out.map (·.1)) ∧
      ∀ x ∈ out, x.2 = ks.count x.1 :=
  ⟨fun h => ⟨h.1, ⟨fun k hk => (h.2.1 k).1 hk, fun k hk => (h.2.1 k).2 hk⟩, h.2.2⟩,
   fun h => ⟨h.1, fun k => ⟨h.2.1.1 k, h.2.1.2 k⟩, h.2.2⟩⟩

/-- Count one more key. -/
def bump (k : Int) : List Pair → List Pair
  | [] => [(k, 1)]
  | p :: l => if k < p.1 then (k, 1) :: p :: l else if k = p.1 then (k, p.2 + 1) :: l else p :: bump k l

/-- The distinct keys in order, with their numbers of occurrences. -/
def tally (ks : List Int) : List Pair := ks.foldr bump []

theorem bump_keys (k : Int) (l : List Pair) (v : Int) : v ∈ (bump k l).map (·.1) ↔ v = k ∨ v ∈ l.map (·.1) := by
  induction l with
  | nil => simp [bump]
  | cons p l ih =>
    unfold bump
    by_cases h1 : k < p.1
    · rw [if_pos h1]; simp
    · rw [if_neg h1]
      by_cases h2 : k = p.1
      · rw [if_pos h2]; simp [h2]
      · rw [if_neg h2, List.map_cons, List.mem_cons, ih, List.map_cons, List.mem_cons]
        constructor
        · rintro (h | h | h)
          · exact .inr (.inl h)
          · exact .inl h
          · exact .inr (.inr h)
        · rintro (h | h | h)
          · exact .inr (.inl h)
          · exact .inl h
          · exact .inr (.inr h)

theorem bump_isTermList {k : Int} {ks : List Int} {l : List Pair} (h : IsTermList ks l) : IsTermList (k :: ks) (bump k l) := by
  refine ⟨?_, fun v => by rw [bump_keys, List.mem_cons, h.2.1], ?_⟩
  · have hs := h.1
    clear h
    induction l with
    | nil => simp [bump]
    | cons p l ih =>
      rw [List.map_cons, List.pairwise_cons] at hs
      unfold bump
      by_cases h1 : k < p.1
      · rw [if_pos h1, List.map_cons, List.pairwise_cons, List.map_cons, List.pairwise_cons]
        refine ⟨fun v hv => ?_, hs⟩
        rcases List.mem_cons.1 hv with rfl | hv
        · exact h1
        · have := hs.1 v hv
          exact Int.lt_trans h1 this
      · rw [if_neg h1]
        by_cases h2 : k = p.1
        · rw [if_pos h2, List.map_cons, List.pairwise_cons]
          exact ⟨fun v hv => by have := hs.1 v hv; show k < v; omega, hs.2⟩
        · rw [if_neg h2, List.map_cons, List.pairwise_cons]
          refine ⟨fun v hv => ?_, ih hs.2⟩
          rcases (bump_keys k l v).1 hv with rfl | hv
          · omega
          · exact hs.1 v hv
  · have hk : ∀ q ∈ l, q.2 = (ks.count q.1 : Int) := h.2.2
    have hm : k ∉ l.map (·.1) → ks.count k = 0 := fun hn => List.count_eq_zero.2 fun h' => hn ((h.2.1 k).2 h')
    have hs := h.1
    have gen : ∀ (l : List Pair), (∀ q ∈ l, q.2 = (ks.count q.1 : Int)) → (k ∉ l.map (·.1) → ks.count k = 0) → (l.map (·.1)).Pairwise (· < ·) →
        ∀ q ∈ bump k l, q.2 = ((k :: ks).count q.1 : Int) := by
      clear h hk hm hs l
      intro l
      have one : ks.count k = 0 → ((k, 1) : Pair).2 = ((k :: ks).count ((k, 1) : Pair).1 : Int) := by
        intro h0
        show (1 : Int) = ((k :: ks).count k : Nat)
        rw [List.count_cons_self, h0]; rfl
      have other : ∀ q : Pair, q.1 ≠ k → q.2 = (ks.count q.1 : Int) → q.2 = ((k :: ks).count q.1 : Int) := by
        intro q hne he
        rw [List.count_cons_of_ne (fun e => hne e.symm)]; exact he
      induction l with
      | nil =>
        intro _ h0 _ q hq
        rw [List.mem_singleton.1 hq]
        exact one (h0 (by simp))
      | cons p l ih =>
        intro hk h0 hs q hq
        rw [List.map_cons, List.pairwise_cons] at hs
        have hgt : ∀ r ∈ l, p.1 < r.1 := fun r hr => hs.1 r.1 (List.mem_map_of_mem hr)
        unfold bump at hq
        by_cases h1 : k < p.1
        · rw [if_pos h1] at hq
          rcases List.mem_cons.1 hq with rfl | hq
          · refine one (h0 ?_)
            intro hm
            obtain ⟨r, hr, e⟩ := List.mem_map.1 hm
            rcases List.mem_cons.1 hr with rfl | hr
            · omega
            · have := hgt r hr; omega
          · refine other q ?_ (hk q hq)
            rcases List.mem_cons.1 hq with rfl | hq
            · omega
            · have := hgt q hq; omega
        · rw [if_neg h1] at hq
          by_cases h2 : k = p.1
          · rw [if_pos h2] at hq
            rcases List.mem_cons.1 hq with rfl | hq
            · have := hk p (by simp)
              show p.2 + 1 = ((k :: ks).count k : Nat)
              rw [List.count_cons_self, h2]
              omega
            · exact other q (by have := hgt q hq; omega) (hk q (by simp [hq]))
          · rw [if_neg h2] at hq
            rcases List.mem_cons.1 hq with rfl | hq
            · exact other _ (fun e => h2 e.symm) (hk _ (by simp))
            · refine ih (fun q hq => hk q (by simp [hq])) (fun hn => h0 ?_) hs.2 q hq
              rw [List.map_cons, List.mem_cons]
              rintro (e | e)
              · exact h2 e
              · exact hn e
    exact gen l hk hm hs

theorem tally_isTermList (ks : List Int) : IsTermList ks (tally ks) := by
  induction ks with
  | nil => exact ⟨.nil, fun v => Iff.rfl, fun q hq => by simp [tally] at hq⟩
  | cons k ks ih => exact bump_isTermList ih

/-- The term at the start of the order with number `i`. -/
def keyAt (i : Nat) (t : Triple) : Int := if i = 0 ∨ i = 3 then t.s else if i = 1 ∨ i = 4 then t.o else t.p

theorem keyAt_order (o : Order) : keyAt o.idx = o.key := by
  funext t
  cases o <;> rfl

/-- An update as it is stored, with `n` new keys. -/
def storedTerms (u : Update) (n : Nat) : DiffTerms where
  isAdd := match u with
    | .add _ => true
    | .del _ => false
  nkeys _ := n
  list i := Obj.keys (tally (u.triples.map (keyAt i)))

theorem storedTerms_of (u : Update) (n : Nat) : (storedTerms u n).Of u := by
  refine ⟨?_, fun o => ⟨_, keys_returns _, ?_, fun _ => rfl, fun _ => rfl⟩⟩
  · cases u <;> simp [storedTerms]
  · rw [keyAt_order]; exact tally_isTermList _

theorem recorded_snoc {sort : Sorter} {fuel : Nat} {o : Order} {base : Obj} {uds : List (Update × DiffTerms)} (h : Recorded sort fuel o base uds)
    (u : Update) (n : Nat) (hn : n = Stats.newKeys fuel (storedTerms u n).isAdd (getTermList sort fuel o.idx base (uds.map (·.2)))
      (tally (u.triples.map (keyAt o.idx)))) : Recorded sort fuel o base (uds ++ [(u, storedTerms u n)]) :=
  .snoc h (storedTerms_of u n) (keys_returns _) (by rw [keyAt_order]; exact tally_isTermList _) hn

/-- The hypotheses of `C19_term_list_partial` hold for a history with a deletion that removes a key and an addition that adds one. -/
example :
    let g : List Triple := [⟨1, 2, 3⟩, ⟨1, 5, 3⟩, ⟨4, 2, 3⟩]
    let us : List Update := [.del [⟨4, 2, 3⟩], .add [⟨1, 9, 9⟩, ⟨7, 9, 9⟩]]
    ∃ out, (getTermList msort 9 Order.spo.idx (Obj.keys (tally (g.map Order.spo.key))) (us.map fun u => storedTerms u 1)).Returns out ∧
    IsTermList ((applyAll g us).map Order.spo.key) out := by
  intro g us
  have h1 := recorded_snoc (sort := msort) (fuel := 9) (o := .spo) (base := Obj.keys (tally (g.map Order.spo.key))) .nil (.del [⟨4, 2, 3⟩]) 1
    (by decide +kernel)
  have h2 := recorded_snoc h1 (.add [⟨1, 9, 9⟩, ⟨7, 9, 9⟩]) 1 (by decide +kernel)
  refine C19_term_list_partial msort msort_specD .spo g (by decide) _ _ (fun _ => rfl) (keys_returns _) (tally_isTermList _) 9 _ h2
    ⟨⟨by decide, by decide⟩, ⟨by decide, by decide⟩, trivial⟩ (by decide) ⟨.inr ⟨4, by decide⟩, .inr ⟨7, by decide⟩, trivial⟩ (.inl rfl) (by decide)

/-- Those of `C19_added_keys_partial` hold for an addition without new predicates and one with a new predicate. -/
example :
    let g : List Triple := [⟨1, 2, 3⟩, ⟨1, 5, 3⟩, ⟨4, 2, 3⟩]
    Recorded msort 9 .pos (Obj.keys (tally (g.map Order.pos.key)))
      [(.add [⟨8, 2, 3⟩], storedTerms (.add [⟨8, 2, 3⟩]) 0), (.add [⟨1, 9, 9⟩], storedTerms (.add [⟨1, 9, 9⟩]) 1)] := by
  intro g
  exact recorded_snoc (recorded_snoc (sort := msort) (fuel := 9) (o := .pos) (base := Obj.keys (tally (g.map Order.pos.key))) .nil _ 0
    (by decide +kernel)) _ 1 (by decide +kernel)

/-- C19 is false of the counts: an addition that brings no new key is left out.  The graph is (1 2 3); after (1 5 3) is added, subject 1
has two triples but is listed with 1. -/
theorem C19_count_violated :
    let g : List Triple := [⟨1, 2, 3⟩]
    let us : List Update := [.add [⟨1, 5, 3⟩]]
    FreshAll g us ∧ ∃ uds, uds.map (·.1) = us ∧ Recorded msort 9 .spo (Obj.keys (tally (g.map Order.spo.key))) uds ∧
      (getTermList msort 9 Order.spo.idx (Obj.keys (tally (g.map Order.spo.key))) (uds.map (·.2))).Returns [(1, 1)] ∧
      ¬ IsTermList ((applyAll g us).map Order.spo.key) [(1, 1)] := by
  intro g us
  refine ⟨⟨⟨by decide, by decide⟩, trivial⟩, [(.add [⟨1, 5, 3⟩], storedTerms (.add [⟨1, 5, 3⟩]) 0)], rfl, ?_, ?_, ?_⟩
  · exact recorded_snoc .nil _ 0 (by decide +kernel)
  · show Yields _ _ _
    rw [yields_cons, yields_nil]
    decide +kernel
  · intro h
    exact absurd (h.2.2 (1, 1) (by simp)) (by decide)

/-- C19 is false of the keys: because of the wrong count, a deletion makes a subject disappear that still has a triple.  The graph is
(1 2 3); (1 5 3) is added, then (1 2 3) is deleted: the list of subjects is empty although (1 5 3) is in the graph. -/
theorem C19_key_lost_violated :
    let g : List Triple := [⟨1, 2, 3⟩]
    let us : List Update := [.add [⟨1, 5, 3⟩], .del [⟨1, 2, 3⟩]]
    FreshAll g us ∧ ∃ uds, uds.map (·.1) = us ∧ Recorded msort 9 .spo (Obj.keys (tally (g.map Order.spo.key))) uds ∧
      (getTermList msort 9 Order.spo.idx (Obj.keys (tally (g.map Order.spo.key))) (uds.map (·.2))).Returns [] ∧
      (⟨1, 5, 3⟩ : Triple) ∈ applyAll g us := by
  intro g us
  refine ⟨⟨⟨by decide, by decide⟩, ⟨by decide, by decide⟩, trivial⟩,
    [(.add [⟨1, 5, 3⟩], storedTerms (.add [⟨1, 5, 3⟩]) 0), (.del [⟨1, 2, 3⟩], storedTerms (.del [⟨1, 2, 3⟩]) 1)], rfl, ?_, ?_, ?_⟩
  · exact recorded_snoc (recorded_snoc .nil (.add [⟨1, 5, 3⟩]) 0 (by decide +kernel)) (.del [⟨1, 2, 3⟩]) 1 (by decide +kernel)
  · show Yields _ _ _
    rw [yields_nil]
    decide +kernel
  · decide

/-- C19 is false of the keys in the other direction: a subject whose triples are deleted by two updates stays in the list.  The graph is
(1 2 3), (1 5 3); both are deleted, one after the other: the list still has subject 1, with both triples. -/
theorem C19_key_kept_violated :
    let g : List Triple := [⟨1, 2, 3⟩, ⟨1, 5, 3⟩]
    let us : List Update := [.del [⟨1, 2, 3⟩], .del [⟨1, 5, 3⟩]]
    FreshAll g us ∧ ∃ uds, uds.map (·.1) = us ∧ Recorded msort 9 .spo (Obj.keys (tally (g.map Order.spo.key))) uds ∧
      (getTermList msort 9 Order.spo.idx (Obj.keys (tally (g.map Order.spo.key))) (uds.map (·.2))).Returns [(1, 2)] ∧
      applyAll g us = [] := by
  intro g us
  refine ⟨⟨⟨by decide, by decide⟩, ⟨by decide, by decide⟩, trivial⟩,
    [(.del [⟨1, 2, 3⟩], storedTerms (.del [⟨1, 2, 3⟩]) 0), (.del [⟨1, 5, 3⟩], storedTerms (.del [⟨1, 5, 3⟩]) 0)], rfl, ?_, ?_, ?_⟩
  · exact recorded_snoc (recorded_snoc .nil (.del [⟨1, 2, 3⟩]) 0 (by decide +kernel)) (.del [⟨1, 5, 3⟩]) 0 (by decide +kernel)
  · show Yields _ _ _
    rw [yields_cons, yields_nil]
    decide +kernel
  · decide

end Trident
