import Verif.Update.ReOrderProofs
import Verif.Props.Update
/-!
# C66: queries in an order that is not stored
-/
namespace Trident
open Strat Load Upd Diff3 ReOrder

/-- The query does not throw and its result is an iterator that returns `out`. -/
def RRes.Returns (r : RRes) (out : List Row3) : Prop := ∃ x, r = .res x ∧ x.Returns out

/-- C66 on a stored graph: in an order that is not stored and whose partner is not stored, any pattern query returns the rows of exactly the
matching triples, each once, sorted, whichever positions of the pattern are fixed. -/
theorem C66_absent_order (kb : KB) (g : List Triple) (h : Loaded kb g) (hp : kb.present 0 = true) (E : Env) (hE : SortsPairs E.sortP) (sortK : KeySort)
    (hK : SortsKeys sortK) (G : KeySeek) (hG : SeekOk G) (hf : g.length < E.fuel) (q : Pattern) (hq : q.Wf) (d : Order) (hd : ¬ kb.Reads d)
    (hg : g ≠ [] ∨ q.s.isSome) :
    ∃ out, (kb.getIteratorR E G sortK d.idx (argOfPos q.s) (argOfPos q.p) (argOfPos q.o)).Returns out ∧
      out.Pairwise Row3.lt ∧ ∀ r, r ∈ out ↔ ∃ t ∈ g, q.Matches t ∧ d.row t = r := by
  have hnull : kb.getIterator E d.idx (argOfPos q.s) (argOfPos q.p) (argOfPos q.o) = .null := by
    unfold KB.getIterator; rw [if_neg (show ¬ (kb.present d.idx = true ∨ _) from hd)]
  obtain ⟨H, rows, a, b, c, e⟩ : ∃ H rows, kb.helper E G (argOfPos q.s) (argOfPos q.p) (argOfPos q.o) = some H ∧
      collect H (argOfPos q.p) (argOfPos q.o) E.fuel H.s = some rows ∧ rows.Pairwise Row3.lt ∧ ∀ r, r ∈ rows ↔ ∃ t, (t ∈ g ∧ q.Matches t) ∧ Order.spo.row t = r := by
    cases hs : q.s with
    | some k => have := h.helper_fixed (E := E) G hf hp q hq hs; rwa [hs] at this
    | none =>
      have := h.helper_free (E := E) hG hf hp (by rcases hg with hg | hg; exact hg; rw [hs] at hg; simp at hg) q hq hs
      rwa [hs] at this
  obtain ⟨x, out, o1, o2, o3, o4⟩ := obj_returns hE hK d (not_reads hp hd) H _ _ rows b c _ e (fun t ht => h.keys t ht.1)
  refine ⟨out, ⟨.itr x, ?_, x, rfl, o2⟩, o3, fun r => (o4 r).trans ?_⟩
  · unfold KB.getIteratorR
    rw [hnull]
    simp only [hp, if_true, a, o1]
  · constructor
    · rintro ⟨t, ⟨h1, h2⟩, h3⟩; exact ⟨t, h1, h2, h3⟩
    · rintro ⟨t, h1, h2, h3⟩; exact ⟨t, ⟨h1, h2⟩, h3⟩

/-- C66, and C21 for any number of indices: load any non-empty list of triples with one, three, four or six indices; then every query on the index
the querier chooses returns exactly the matching triples, each once, sorted by the order of the index. -/
theorem C66_load_then_query (c : Config) (g : List T3) (h : c.Ok g)
    (m : Mem) (M : Nat → Maps) (hM : ∀ i, i < 6 → Mapped m (M i) (c.ins g i).store.files)
    (E : Env) (hE : SortsPairs E.sortP) (sortK : KeySort) (hK : SortsKeys sortK) (G : KeySeek) (hG : SeekOk G) (hf : g.length < E.fuel)
    (q : Pattern) (hq : q.Wf) (hg : g ≠ []) :
    ∃ d out, getIndex (argOfPos q.s) (argOfPos q.p) (argOfPos q.o) = Order.idx d ∧
      ((c.open' g m M).getIteratorR E G sortK (getIndex (argOfPos q.s) (argOfPos q.p) (argOfPos q.o))
        (argOfPos q.s) (argOfPos q.p) (argOfPos q.o)).Returns out ∧
      out.Pairwise Row3.lt ∧ ∀ r, r ∈ out ↔ ∃ t ∈ g, q.Matches t.triple ∧ d.row t.triple = r := by
  obtain ⟨d, e, h1, h2⟩ := C20_bound_first q hq
  have hp : (c.open' g m M).present 0 = true := by
    show permsOf c.nindices 0 = true
    rcases h.nindices with e | e | e | e <;> rw [e] <;> decide
  have key : ∃ out, ((c.open' g m M).getIteratorR E G sortK d.idx (argOfPos q.s) (argOfPos q.p) (argOfPos q.o)).Returns out ∧
      out.Pairwise Row3.lt ∧ ∀ r, r ∈ out ↔ ∃ t ∈ g.map T3.triple, q.Matches t ∧ d.row t = r := by
    by_cases hd : (c.open' g m M).Reads d
    · obtain ⟨out, ⟨x, hx, hy⟩, b', c'⟩ := C21_stored_partial (c.open' g m M) _ (h.loaded hM) E hE (by simpa using hf) q hq d hd h1 h2 (.inl (by simpa using hg))
      refine ⟨out, ⟨.itr x, ?_, x, rfl, hy⟩, b', c'⟩
      unfold KB.getIteratorR
      rw [hx]
    · exact C66_absent_order (c.open' g m M) _ (h.loaded hM) hp E hE sortK hK G hG (by simpa using hf) q hq d hd (.inl (by simpa using hg))
  obtain ⟨out, a, b', c'⟩ := key
  refine ⟨d, out, e, by rw [e]; exact a, b', fun r => (c' r).trans ?_⟩
  constructor
  · rintro ⟨t', ht', h1, h2⟩
    obtain ⟨t, ht, rfl⟩ := List.mem_map.1 ht'
    exact ⟨t, ht, h1, h2⟩
  · rintro ⟨t, ht, h1, h2⟩
    exact ⟨_, List.mem_map.2 ⟨t, ht, rfl⟩, h1, h2⟩

/-- C66 with updates: as C24, in an order that is not stored.  Missing: patterns with a fixed predicate and a free subject, see
`C66_updates_violated`, and patterns with fixed subject and object but free predicate. -/
theorem C66_updates_partial (kb : KB) (g : List Triple) (h : Loaded kb g) (hg : g ≠ []) (hp : kb.present 0 = true) (E : UEnv) (hE : E.Ok) (S : Sorts) (hS : S.Ok)
    (sortK : KeySort) (hK : SortsKeys sortK) (G : KeySeek) (hG : SeekOk G)
    (rnd : Nat → Nat → Nat → Bool × Bool) (M : Nat → Disk → Mapping) (hM : ∀ n D, (M n D).Of D) (ops : List (Bool × List T3)) (hfit : OpsFit ops)
    (hvol : volume ops < 2 ^ 27) (hf : g.length + volume ops < E.fuel) :
    ∃ D, updates kb E S rnd M 0 Disk.empty ops = some D ∧ ∀ M' : Mapping, M'.Of D → ∀ (q : Pattern) (_ : q.Wf) (d : Order) (_ : ¬ kb.Reads d)
      (_ : (q.s = none ∧ q.p = none) ∨ (q.s.isSome ∧ (q.o.isSome → q.p.isSome))),
      ∃ out, (kb.getIteratorRU E G sortK (D.opened M') d.idx (argOfPos q.s) (argOfPos q.p) (argOfPos q.o)).Returns out ∧ out.Pairwise Row3.lt ∧
        ∀ r, r ∈ out ↔ ∃ t, holdsAfter (· ∈ g) (ops.map fun u => request u.1 u.2) t ∧ q.Matches t ∧ d.row t = r := by
  obtain ⟨D', us', a, b, c, hh⟩ := updates_spec h hE hS rnd hg (.inl hp) hM ops 0 (DiskOk.empty g) hfit (by simpa using hvol) (by simpa using hf)
  simp only [List.map_nil, List.sum_nil, Nat.zero_add] at c
  refine ⟨D', a, fun M' hM' q hq d hd hcase => ?_⟩
  obtain ⟨o1, o2⟩ := b.opened hM'
  have hh' : ∀ t, t ∈ applyAll g us' ↔ holdsAfter (· ∈ g) (ops.map fun u => request u.1 u.2) t := hh
  have h0 : ∀ t, t ∈ applyAll g us' → ∀ x, 0 ≤ t.at x := fun t ht => holdsAfter_nonneg ops h.keys t ((hh' t).1 ht)
  have hsize := rows_fit g us' (n := E.fuel) (by omega)
  have hnull : kb.getIteratorU E (D'.opened M') d.idx (argOfPos q.s) (argOfPos q.p) (argOfPos q.o) = .null := by
    unfold KB.getIteratorU; rw [if_neg (show ¬ (kb.present d.idx = true ∨ _) from hd)]
  have key : ∃ H rows, kb.helperU E G (D'.opened M') (argOfPos q.s) (argOfPos q.p) (argOfPos q.o) = some H ∧
      collect H (argOfPos q.p) (argOfPos q.o) E.fuel H.s = some rows ∧ rows.Pairwise Row3.lt ∧
        ∀ r, r ∈ rows ↔ ∃ t, (t ∈ applyAll g us' ∧ q.Matches t) ∧ Order.spo.row t = r := by
    by_cases hb : argOfPos q.s ≥ 0 ∨ ((D'.opened M').any fun D => (D.scan 0).hasNext) = true
    · unfold KB.helperU
      rw [if_pos hb]
      have hq0 : ∀ v ∈ q.p, 0 ≤ v := hq .p
      rcases hcase with ⟨n1, n2⟩ | ⟨n1, n2⟩
      · obtain ⟨out, ⟨x, e0, e1⟩, e2, e3⟩ := updates_query h hE us' (D'.opened M') o1 .spo (fun i x y => ⟨(o2 i x y).1, (o2 i x y).2.at _⟩) b.fresh (by omega)
          ⟨none, none, none⟩ (by intro x v hv; cases x <;> simp [Pattern.at] at hv) (.inl hp) (by simp [Order.positions, Pattern.at]) (by simp [Order.positions, Pattern.at]) (.inl hg)
        have e0' : kb.getIteratorU E (D'.opened M') 0 (argOfPos q.s) (argOfPos q.p) (argOfPos q.o) = .itr x := by
          rw [← e0, n1, n2]
          unfold KB.getIteratorU
          simp [permute, argOfPos, Order.idx]
        have hm : ∀ t : Triple, (⟨none, none, none⟩ : Pattern).Matches t := fun t x v hv => by cases x <;> simp [Pattern.at] at hv
        rw [e0']
        refine ⟨_, _, rfl, collect_noJump (coll_yields ⟨x.σ, x.I, fun _ _ => none, x.s⟩) _ _ E.fuel out x.s e1
          (hsize out e2 fun r hr => by obtain ⟨t, h1, -, h2⟩ := (e3 r).1 hr; exact ⟨t, h1, h2⟩) ?_, e2.sublist List.filter_sublist, ?_⟩
        · intro r _; rw [n2]; simp [jumps, argOfPos]
        · refine kept_rows q hq (· ∈ applyAll g us') out (fun r => (e3 r).trans ?_)
          rw [n1]
          constructor
          · rintro ⟨t, ht, -, h3⟩; exact ⟨t, ht, by simp, by simp, h3⟩
          · rintro ⟨t, ht, -, -, h3⟩; exact ⟨t, ht, hm t, h3⟩
      · obtain ⟨out, ⟨x, e0, e1⟩, e2, e3⟩ := updates_query h hE us' (D'.opened M') o1 .spo (fun i x y => ⟨(o2 i x y).1, (o2 i x y).2.at _⟩) b.fresh (by omega)
          q hq (.inl hp) (fun _ => n1) n2 (.inl hg)
        have e0' : kb.getIteratorU E (D'.opened M') 0 (argOfPos q.s) (argOfPos q.p) (argOfPos q.o) = .itr x := e0
        rw [e0']
        refine ⟨_, _, rfl, collect_noJump (coll_yields ⟨x.σ, x.I, fun _ _ => none, x.s⟩) _ _ E.fuel out x.s e1
          (hsize out e2 fun r hr => by obtain ⟨t, h1, -, h2⟩ := (e3 r).1 hr; exact ⟨t, h1, h2⟩) ?_, e2.sublist List.filter_sublist, ?_⟩
        · intro r hr
          obtain ⟨t, -, hm, rfl⟩ := (e3 r).1 hr
          cases hqp : q.p with
          | none => simp [jumps, argOfPos]
          | some v =>
            have : t.at .p = v := hm .p v hqp
            show (_ && decide (t.at .p > v)) = false
            rw [this]; simp
        · intro r
          rw [List.mem_filter, e3]
          constructor
          · rintro ⟨⟨t, h1, h2, h3⟩, -⟩; exact ⟨t, ⟨h1, h2⟩, h3⟩
          · rintro ⟨t, ⟨h1, h2⟩, rfl⟩
            exact ⟨⟨t, h1, h2, rfl⟩, (keeps_iff q hq t).2 ⟨h2 .p, h2 .o⟩⟩
    · have hb' := not_or.1 hb
      have hs : q.s = none := by
        cases hs : q.s with
        | none => rfl
        | some v => exact absurd (show argOfPos q.s ≥ 0 by rw [hs]; exact hq .s v hs) hb'.1
      have hemp := applyAll_empty us' (diffs_empty o1 (fun i x y => (o2 i x y).2.at _) (Bool.eq_false_iff.2 hb'.2)) g
      obtain ⟨H, rows, x1, x2, x3, x4⟩ := h.helper_free (E := E.toEnv) hG (by omega) hp hg q hq hs
      refine ⟨H, rows, ?_, x2, x3, by rw [hemp]; exact x4⟩
      unfold KB.helperU
      unfold KB.helper at x1
      rw [if_neg hb'.1] at x1
      rw [if_neg hb]
      exact x1
  obtain ⟨H, rows, x1, x2, x3, x4⟩ := key
  obtain ⟨x, out, y1, y2, y3, y4⟩ := obj_returns hE.sortP hK d (not_reads hp hd) H _ _ rows x2 x3 _ x4 (fun t ht => h0 t ht.1)
  refine ⟨out, ⟨.itr x, ?_, x, rfl, y2⟩, y3, fun r => (y4 r).trans ?_⟩
  · unfold KB.getIteratorRU
    rw [hnull]
    simp only [hp, if_true, x1, y1]
  · constructor
    · rintro ⟨t, ⟨h1, h2⟩, h3⟩; exact ⟨t, (hh' t).1 h1, h2, h3⟩
    · rintro ⟨t, h1, h2, h3⟩; exact ⟨t, ⟨(hh' t).2 h1, h2⟩, h3⟩

/-- C66 is false with updates: after any history that changed the graph, a query with a fixed predicate and a free subject in an order that is not
stored throws, whenever a triple with a greater predicate holds. -/
theorem C66_updates_violated (kb : KB) (g : List Triple) (h : Loaded kb g) (hg : g ≠ []) (hp : kb.present 0 = true) (E : UEnv) (hE : E.Ok) (S : Sorts) (hS : S.Ok)
    (sortK : KeySort) (G : KeySeek)
    (rnd : Nat → Nat → Nat → Bool × Bool) (M : Nat → Disk → Mapping) (hM : ∀ n D, (M n D).Of D) (ops : List (Bool × List T3)) (hfit : OpsFit ops)
    (hvol : volume ops < 2 ^ 27) (hf : g.length + volume ops < E.fuel)
    (hchg : ∃ t, ¬ (holdsAfter (· ∈ g) (ops.map fun u => request u.1 u.2) t ↔ t ∈ g)) (v : Int) (hv : 0 ≤ v)
    (hgt : ∃ t, holdsAfter (· ∈ g) (ops.map fun u => request u.1 u.2) t ∧ v < t.p) (o : Int) (d : Order) (hd : ¬ kb.Reads d) :
    ∃ D, updates kb E S rnd M 0 Disk.empty ops = some D ∧ ∀ M' : Mapping, M'.Of D → kb.getIteratorRU E G sortK (D.opened M') d.idx (-1) v o = .throws := by
  obtain ⟨D', us', a, b, c, hh⟩ := updates_spec h hE hS rnd hg (.inl hp) hM ops 0 (DiskOk.empty g) hfit (by simpa using hvol) (by simpa using hf)
  simp only [List.map_nil, List.sum_nil, Nat.zero_add] at c
  refine ⟨D', a, fun M' hM' => ?_⟩
  obtain ⟨o1, o2⟩ := b.opened hM'
  have hh' : ∀ t, t ∈ applyAll g us' ↔ holdsAfter (· ∈ g) (ops.map fun u => request u.1 u.2) t := hh
  have hb : ((D'.opened M').any fun D => (D.scan 0).hasNext) = true := by
    rw [← Bool.not_eq_false]
    intro hn
    have hemp := applyAll_empty us' (diffs_empty o1 (fun i x y => (o2 i x y).2.at _) hn) g
    obtain ⟨t, ht⟩ := hchg
    exact ht (by rw [← hh' t, hemp])
  have hsize := rows_fit g us' (n := E.fuel) (by omega)
  obtain ⟨out, ⟨x, e0, e1⟩, e2, e3⟩ := updates_query h hE us' (D'.opened M') o1 .spo (fun i x y => ⟨(o2 i x y).1, (o2 i x y).2.at _⟩) b.fresh (by omega)
    ⟨none, none, none⟩ (by intro x v hv; cases x <;> simp [Pattern.at] at hv) (.inl hp) (by simp [Order.positions, Pattern.at]) (by simp [Order.positions, Pattern.at]) (.inl hg)
  have e0' : kb.getIteratorU E (D'.opened M') 0 (-1) v o = .itr x := by
    rw [← e0]
    unfold KB.getIteratorU
    simp [permute, argOfPos, Order.idx]
  have hnull : kb.getIteratorU E (D'.opened M') d.idx (-1) v o = .null := by
    unfold KB.getIteratorU; rw [if_neg (show ¬ (kb.present d.idx = true ∨ _) from hd)]
  have hH : kb.helperU E G (D'.opened M') (-1) v o = some ⟨x.σ, x.I, fun _ _ => none, x.s⟩ := by
    unfold KB.helperU
    rw [if_pos (.inr hb), e0']
  have hthrow : collect ⟨x.σ, x.I, fun _ _ => none, x.s⟩ v o E.fuel x.s = none := by
    refine collect_throws (H := ⟨x.σ, x.I, fun _ _ => none, x.s⟩) (fun _ _ => rfl) E.fuel out x.s e1 (hsize out e2 fun r hr => by obtain ⟨t, h1, -, h2⟩ := (e3 r).1 hr; exact ⟨t, h1, h2⟩) ?_
    obtain ⟨t, h1, h2⟩ := hgt
    refine ⟨Order.spo.row t, (e3 _).2 ⟨t, (hh' t).2 h1, fun x v hv => by cases x <;> simp [Pattern.at] at hv, rfl⟩, ?_⟩
    show (decide (v ≥ 0) && decide (t.p > v)) = true
    simp [hv, h2]
  unfold KB.getIteratorRU
  rw [hnull]
  have : ReOrder.obj E.toEnv sortK ⟨x.σ, x.I, fun _ _ => none, x.s⟩ d.idx v o = none := by
    unfold ReOrder.obj
    rw [hthrow]; rfl
  simp only [hp, if_true, hH, this]

/-! ## Jumping to a key -/

/-- C66: after a jump to the key `k`, the rows to come are those of the keys from `k` on, if a key at or after `k` is left. -/
theorem C66_goto_key_partial (sortP : List (Nat × Nat) → List (Nat × Nat)) (hsort : SortsPairs sortP) (a : List (Nat × List (Nat × Nat))) (hne : ∀ e ∈ a, e.2 ≠ [])
    (hs : a.Pairwise fun x y => x.1 < y.1) (k : Int) (s : ReOrder.St) (hk : s.key < k) (hex : ∃ e ∈ a.drop s.nextKey, k ≤ e.1) :
    Yields (ReOrder.itr sortP a) (ReOrder.gotoKey a k s) (out sortP ((a.drop s.nextKey).filter fun e => k ≤ e.1)) := by
  have hseek : ∀ n i key, a.length - i = n → (∃ e ∈ a.drop i, k ≤ e.1) → ∃ h : (seek a k i key).1 < a.length,
      a.drop (seek a k i key).1 = (a.drop i).filter fun e => k ≤ (e.1 : Int) := by
    intro n
    induction n with
    | zero =>
      intro i key hi hx
      rw [List.drop_eq_nil_of_le (by omega)] at hx
      obtain ⟨e, he, -⟩ := hx; simp at he
    | succ n ih =>
      intro i key hi hx
      have hlt : i < a.length := by omega
      have hdrop : a.drop i = a[i] :: a.drop (i + 1) := (List.getElem_cons_drop hlt).symm
      have hsd : (a.drop i).Pairwise fun x y => x.1 < y.1 := hs.sublist (List.drop_sublist _ _)
      rw [hdrop, List.pairwise_cons] at hsd
      rw [seek, dif_pos hlt]
      by_cases hc : (a[i].1 : Int) ≥ k
      · rw [if_pos hc]
        refine ⟨hlt, ?_⟩
        dsimp only
        rw [hdrop, List.filter_eq_self.2]
        intro e he
        rcases List.mem_cons.1 he with rfl | he
        · simpa using hc
        · have := hsd.1 e he
          simp; omega
      · rw [if_neg hc]
        rw [hdrop] at hx
        obtain ⟨e, he, hek⟩ := hx
        obtain ⟨h1, h2⟩ := ih (i + 1) a[i].1 (by omega) ⟨e, by
          rcases List.mem_cons.1 he with rfl | he
          · exact absurd hek hc
          · exact he, hek⟩
        refine ⟨h1, ?_⟩
        rw [h2, hdrop, List.filter_cons_of_neg (by simpa using hc)]
  obtain ⟨h1, h2⟩ := hseek _ s.nextKey s.key rfl hex
  unfold ReOrder.gotoKey
  rw [if_neg (by omega)]
  dsimp only
  rw [if_pos h1, ← h2]
  generalize (seek a k s.nextKey s.key).2 = key
  generalize (seek a k s.nextKey s.key).1 = i at *
  have hh : ReOrder.hasNext a { s with nextKey := i, key := key, itr := none } = (decide (i < a.length), ⟨i, none, key⟩) :=
    (next_key (sortP := sortP) (a := a) (s := ⟨i, none, key⟩) rfl rfl hne).1
  rw [hh]
  exact (ReOrder.yields hsort hne _ i rfl).1 key

/-- C66: a jump to a key after the last one does not end the answer: the rest of the current key is still returned. -/
theorem C66_goto_key_past_end_violated : ∃ (a : List (Nat × List (Nat × Nat))) (s : ReOrder.St) (k : Int), (∀ e ∈ a, (e.1 : Int) < k) ∧
    s = ReOrder.next isort a (ReOrder.hasNext a ⟨0, none, 0⟩).2 ∧ Yields (ReOrder.itr isort a) (ReOrder.gotoKey a k s) [(1, (3, 4))] := by
  refine ⟨[(1, [(3, 4), (1, 2)])], _, 5, by decide, rfl, ?_⟩
  refine yields_cons.2 ⟨by decide +kernel, by decide +kernel, .done (by decide +kernel)⟩

/-! ## Examples -/

/-- An insertion sort of the vectors. -/
def insertKey (x : Nat × List (Nat × Nat)) : List (Nat × List (Nat × Nat)) → List (Nat × List (Nat × Nat))
  | [] => [x]
  | y :: l => if x.1 ≤ y.1 then x :: y :: l else y :: insertKey x l

def sortKeys : KeySort
  | [] => []
  | x :: l => insertKey x (sortKeys l)

theorem insertKey_spec (x : Nat × List (Nat × Nat)) (l : List (Nat × List (Nat × Nat))) (h : l.Pairwise fun a b => a.1 ≤ b.1) :
    (insertKey x l).Perm (x :: l) ∧ (insertKey x l).Pairwise fun a b => a.1 ≤ b.1 := by
  induction l with
  | nil => exact ⟨.rfl, by simp [insertKey]⟩
  | cons y l ih =>
    rw [insertKey]
    rw [List.pairwise_cons] at h
    by_cases hxy : x.1 ≤ y.1
    · rw [if_pos hxy]
      refine ⟨.rfl, List.pairwise_cons.2 ⟨fun z hz => ?_, List.pairwise_cons.2 h⟩⟩
      rcases List.mem_cons.1 hz with rfl | hz
      · exact hxy
      · have := h.1 z hz; omega
    · rw [if_neg hxy]
      obtain ⟨a, b⟩ := ih h.2
      refine ⟨(a.cons y).trans (.swap ..), List.pairwise_cons.2 ⟨fun z hz => ?_, b⟩⟩
      rcases List.mem_cons.1 (a.mem_iff.1 hz) with rfl | hz
      · omega
      · exact h.1 z hz

theorem sortKeys_sorts : SortsKeys sortKeys := by
  intro l
  induction l with
  | nil => exact ⟨.rfl, .nil⟩
  | cons x l ih =>
    obtain ⟨a, b⟩ := insertKey_spec x (sortKeys l) ih.2
    exact ⟨a.trans (ih.1.cons x), b⟩

/-- A seek that does not move, and one that moves exactly. -/
theorem seekOk_id : SeekOk fun _ t => t := fun _ _ _ => ⟨[], rfl, by simp⟩

theorem seekOk_exact : SeekOk fun k t => ⟨t.cur, t.rest.dropWhile fun e => e.1 < k⟩ := by
  intro k t _
  refine ⟨t.rest.takeWhile fun e => e.1 < k, (List.takeWhile_append_dropWhile ..).symm, fun e he => ?_⟩
  have : ∀ (l : List (Int × Coord)), e ∈ l.takeWhile (fun e => decide (e.1 < k)) → e.1 < k := by
    intro l
    induction l with
    | nil => simp
    | cons x l ih =>
      rw [List.takeWhile_cons]
      split
      · rename_i hx
        intro h
        rcases List.mem_cons.1 h with rfl | h
        · simpa using hx
        · exact ih h
      · simp
  exact this _ he

/-- The configuration of the example with one index only. -/
def exConfig1 : Config := { exConfig with nindices := 1 }

theorem exOk1 : exConfig1.Ok exGraph where
  sort := sortRows_sorts
  nindices := by decide
  skip := by decide
  fixed := .inl rfl
  ids := by decide
  len := by decide
  nfiles := by
    intro i
    by_cases hi : i < 6
    · have : ∀ i, i < 6 → (exConfig1.ins exGraph i).store.files.length ≤ 2 ^ 15 := by decide +kernel
      exact this i hi
    · have : ¬ permsOf 1 i = true := fun h => hi (permsOf_lt h)
      rw [ins_neg this]; decide
  fsize := by
    intro i
    by_cases hi : i < 6
    · have : ∀ i, i < 6 → ∀ f ∈ (exConfig1.ins exGraph i).store.files, f.bytes.length < 2 ^ 40 := by decide +kernel
      exact this i hi
    · have : ¬ permsOf 1 i = true := fun h => hi (permsOf_lt h)
      rw [ins_neg this]; decide

/-- The example: with the index SPO only, the triples with predicate 1, listed in the order PSO that is not stored. -/
example : ∃ m M out, (∀ i, i < 6 → Mapped m (M i) (exConfig1.ins exGraph i).store.files) ∧
    ¬ (exConfig1.open' exGraph m M).Reads .pso ∧
    ((exConfig1.open' exGraph m M).getIteratorR exEnv.toEnv (fun _ t => t) sortKeys (getIndex (-1) 1 (-1)) (-1) 1 (-1)).Returns out ∧
    out.Pairwise Row3.lt ∧ ∀ r, r ∈ out ↔ r = (1, 2, 70000) ∨ r = (1, 7, 2) ∨ r = (1, 7, 300) := by
  obtain ⟨m, M, hM⟩ := exists_mapped fun i => (exConfig1.ins exGraph i).store.files
  obtain ⟨d, out, a, b, c, e⟩ := C66_load_then_query exConfig1 exGraph exOk1 m M hM exEnv.toEnv isort_sorts sortKeys sortKeys_sorts _ seekOk_id (by decide)
    ⟨none, some 1, none⟩ (by intro x v hv; cases x <;> simp [Pattern.at] at hv; omega) (by decide)
  have hd : d = .pso := by
    cases d <;> first | rfl | exact absurd a (by decide)
  subst hd
  refine ⟨m, M, out, hM, ?_, b, c, fun r => (e r).trans ?_⟩
  · rintro (h | ⟨-, h⟩)
    · exact absurd (show permsOf 1 5 = true from h) (by decide)
    · exact absurd (show permsOf 1 2 = true from h) (by decide)
  · have hmt : ∀ t : Triple, (⟨none, some 1, none⟩ : Pattern).Matches t ↔ t.p = 1 := by
      intro t
      rw [matches_iff .pso]
      simp [Pattern.at, Order.positions, Order.key, Triple.at]
    simp only [hmt]
    constructor
    · rintro ⟨t, h1, h2, h3⟩
      simp only [exGraph, List.mem_cons, List.not_mem_nil, or_false] at h1
      rcases h1 with h1 | h1 | h1 | h1 | h1 <;> subst h1 <;> subst h3 <;> revert h2 <;> decide
    · rintro (h | h | h) <;> subst h
      · exact ⟨(2, 1, 70000), by decide, rfl, rfl⟩
      · exact ⟨(7, 1, 2), by decide, rfl, rfl⟩
      · exact ⟨(7, 1, 300), by decide, rfl, rfl⟩

/-- The example with updates: the triples with predicate 1 cannot be listed any more in the order PSO; all triples can. -/
example : ∃ m Mm M M' D out, (∀ i, i < 6 → Mapped m (Mm i) (exConfig1.ins exGraph i).store.files) ∧
    updates (exConfig1.open' exGraph m Mm) exEnv msorts (fun _ _ _ => (true, false)) M 0 Disk.empty exOps = some D ∧ M'.Of D ∧
    (exConfig1.open' exGraph m Mm).getIteratorRU exEnv (fun _ t => t) sortKeys (D.opened M') 5 (-1) 1 (-1) = .throws ∧
    ((exConfig1.open' exGraph m Mm).getIteratorRU exEnv (fun _ t => t) sortKeys (D.opened M') 5 (-1) (-1) (-1)).Returns out ∧
    (1, 2, 5) ∈ out ∧ (4, 2, 7) ∈ out ∧ (1, 7, 300) ∉ out := by
  obtain ⟨m, Mm, hMm⟩ := exists_mapped fun i => (exConfig1.ins exGraph i).store.files
  have hM := fun (_ : Nat) (D : Disk) => Classical.choose_spec (exists_mapping D)
  have hp : (exConfig1.open' exGraph m Mm).present 0 = true := show permsOf 1 0 = true by decide
  have hd : ¬ (exConfig1.open' exGraph m Mm).Reads .pso := by
    rintro (h | ⟨-, h⟩)
    · exact absurd (show permsOf 1 5 = true from h) (by decide)
    · exact absurd (show permsOf 1 2 = true from h) (by decide)
  have hh : ∀ t : Triple, holdsAfter (· ∈ exGraph.map T3.triple) (exOps.map fun u => request u.1 u.2) t ↔
      ((t ∈ exGraph.map T3.triple ∧ t ∉ [(7, 1, 300), (9, 9, 9)].map T3.triple) ∨ t ∈ [(2, 1, 5), (2, 4, 7), (3, 1, 8), (2, 1, 5)].map T3.triple) ∧
      t ∉ [(3, 1, 8)].map T3.triple := fun t => Iff.rfl
  obtain ⟨D, hD, hthrow⟩ := C66_updates_violated (exConfig1.open' exGraph m Mm) _ (exOk1.loaded hMm) (by decide) hp exEnv exEnv_ok msorts msorts_ok sortKeys
    (fun _ t => t) (fun _ _ _ => (true, false)) _ hM exOps ⟨by decide, by decide⟩ (by decide) (by decide)
    ⟨⟨7, 1, 300⟩, by rw [hh]; decide⟩ 1 (by decide) ⟨⟨2, 4, 7⟩, by rw [hh]; decide, by decide⟩ (-1) .pso hd
  obtain ⟨D', hD', hq⟩ := C66_updates_partial (exConfig1.open' exGraph m Mm) _ (exOk1.loaded hMm) (by decide) hp exEnv exEnv_ok msorts msorts_ok sortKeys sortKeys_sorts
    (fun _ t => t) seekOk_id (fun _ _ _ => (true, false)) _ hM exOps ⟨by decide, by decide⟩ (by decide) (by decide)
  rw [hD] at hD'
  obtain rfl := Option.some.inj hD'
  obtain ⟨M', hM'⟩ := exists_mapping D
  obtain ⟨out, a, -, c⟩ := hq M' hM' ⟨none, none, none⟩ (by intro x v hv; cases x <;> simp [Pattern.at] at hv) .pso hd (.inl ⟨rfl, rfl⟩)
  have hm : ∀ t : Triple, (⟨none, none, none⟩ : Pattern).Matches t := fun t x v hv => by cases x <;> simp [Pattern.at] at hv
  refine ⟨m, Mm, _, M', D, out, hMm, hD, hM', hthrow M' hM', a, (c _).2 ⟨⟨2, 1, 5⟩, by rw [hh]; decide, hm _, rfl⟩,
    (c _).2 ⟨⟨2, 4, 7⟩, by rw [hh]; decide, hm _, rfl⟩, fun hmem => ?_⟩
  obtain ⟨t, h1, -, h3⟩ := (c _).1 hmem
  have : t = ⟨7, 1, 300⟩ := C20_injective .pso t ⟨7, 1, 300⟩ h3
  subst this
  rw [hh] at h1
  revert h1
  decide

/-- A jump within the vectors. -/
example : Yields (ReOrder.itr isort [(1, [(3, 4), (1, 2)]), (4, [(9, 9)]), (7, [(5, 6), (5, 1)])])
    (ReOrder.gotoKey [(1, [(3, 4), (1, 2)]), (4, [(9, 9)]), (7, [(5, 6), (5, 1)])] 5 ⟨1, none, 1⟩) [(7, 5, 1), (7, 5, 6)] := by
  have := C66_goto_key_partial isort isort_sorts [(1, [(3, 4), (1, 2)]), (4, [(9, 9)]), (7, [(5, 6), (5, 1)])] (by decide) (by decide) 5 ⟨1, none, 1⟩
    (by decide) ⟨(7, [(5, 6), (5, 1)]), by decide, by decide⟩
  exact this

end Trident
