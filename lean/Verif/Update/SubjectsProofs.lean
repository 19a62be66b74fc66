import Verif.Update.MergeUpdates
import Verif.Update.UpdaterProofs
/-! Helper proofs for the number of subjects stored with an update (no property statements here). -/
namespace Trident.Upd
open Load Diff3

theorem int_strict : Strict (fun a b : Int => a < b) where
  irrefl a := by omega
  trans h h' := by omega
  tri h h' := by omega

theorem isTermList_unique {ks : List Int} {a b : List Pair} (ha : IsTermList ks a) (hb : IsTermList ks b) : a = b := by
  have hm : a.map (·.1) = b.map (·.1) := int_strict.ext ha.1 hb.1 fun x => (ha.2.1 x).trans (hb.2.1 x).symm
  have key : ∀ (a b : List Pair), a.map (·.1) = b.map (·.1) → (∀ q ∈ a, q.2 = (ks.count q.1 : Int)) → (∀ q ∈ b, q.2 = (ks.count q.1 : Int)) → a = b := by
    intro a
    induction a with
    | nil => intro b h _ _; cases b with
      | nil => rfl
      | cons y b => simp at h
    | cons x a ih =>
      intro b h h1 h2
      cases b with
      | nil => simp at h
      | cons y b =>
        simp only [List.map_cons, List.cons.injEq] at h
        have e1 := h1 x (by simp)
        have e2 := h2 y (by simp)
        rw [h.1] at e1
        rw [ih b h.2 (fun q hq => h1 q (by simp [hq])) (fun q hq => h2 q (by simp [hq])),
          Prod.ext h.1 (e1.trans e2.symm)]
  exact key a b hm ha.2.2 hb.2.2

theorem count_key {R : List T3} (k : Nat) : (R.map fun r : T3 => (r.1 : Int)).count (k : Int) = (R.filter fun r => decide (r.1 = k)).length := by
  induction R with
  | nil => rfl
  | cons r R ih =>
    by_cases h : r.1 = k
    · rw [List.map_cons, h, List.count_cons_self, List.filter_cons_of_pos (by simpa using h), List.length_cons, ih]
    · have hne : (r.1 : Int) ≠ (k : Int) := fun e => h (Int.ofNat.inj e)
      rw [List.map_cons, List.count_cons_of_ne hne, List.filter_cons_of_neg (by simpa using h), ih]

/-- Keys with the right numbers are a term list. -/
theorem tabs_isTermList {R : List T3} {gs : List (Nat × List Nat × List Nat)} (T : TabsOf R gs) {l : List Pair}
    (hl : l.map (·.1) = gs.map fun g => (g.1 : Int)) (hn : ∀ q ∈ l, ∃ g ∈ gs, q.1 = g.1 ∧ q.2 = ((R.filter fun r => decide (r.1 = g.1)).length : Int)) :
    IsTermList (R.map fun r => (r.1 : Int)) l := by
  refine ⟨?_, fun v => ?_, fun q hq => ?_⟩
  · rw [hl]
    exact List.pairwise_map.2 (T.keys.imp fun h => by omega)
  · rw [hl]
    constructor
    · intro h
      obtain ⟨g, hg, rfl⟩ := List.mem_map.1 h
      obtain ⟨r, hr, e⟩ := T.sound g hg
      exact List.mem_map.2 ⟨r, hr, by rw [e]⟩
    · intro h
      obtain ⟨r, hr, rfl⟩ := List.mem_map.1 h
      obtain ⟨g, hg, e⟩ := T.complete r hr
      exact List.mem_map.2 ⟨g, hg, by rw [e]⟩
  · obtain ⟨g, hg, e1, e2⟩ := hn q hq
    rw [e1, count_key, e2]

theorem key_permRow (d : Order) (ts : List T3) : (ts.map (permRow d.idx)).map (fun r => (r.1 : Int)) = (ts.map T3.triple).map d.key := by
  rw [List.map_map, List.map_map]
  exact List.map_congr_left fun t _ => permRow_key d t

theorem subjects_isTermList {S : Sorts} (hS : S.Ok) (ts : List T3) : IsTermList ((ts.map T3.triple).map Order.spo.key) (subjects S ts) := by
  rw [← key_permRow]
  refine tabs_isTermList (tables_all hS _) (by unfold subjects; rw [List.map_map]; rfl) fun q hq => ?_
  obtain ⟨g, hg, rfl⟩ := List.mem_map.1 hq
  refine ⟨g, hg, rfl, ?_⟩
  have := ((tables_all hS _).t1 g hg).1.length_eq
  simp only [this]
  rw [w12, List.length_map]
  rfl

theorem permRow_inj (i : Nat) {a b : T3} (h : permRow i a = permRow i b) : a = b := by
  unfold permRow at h
  split at h <;> simp only [Prod.mk.injEq] at h <;> exact Prod.ext (by omega) (Prod.ext (by omega) (by omega))

/-- A table of different triples has as many rows as there are triples with its key. -/
theorem rows_count {l : List T3} (hn : l.Nodup) (hlt : ∀ r ∈ l, r.2.1 < 2 ^ 32 - 1 ∧ r.2.2 < 2 ^ 32 - 1) {k : Nat} {t : List Nat}
    (hp : t.Perm (w12 l k)) (hs : t.Pairwise (· ≤ ·)) (hex : ∃ r ∈ l, r.1 = k) :
    (Diff3.rows t).length = (l.filter fun r => decide (r.1 = k)).length := by
  obtain ⟨r0, hr0, er0⟩ := hex
  have W : Words t := words_of hr0 er0 hp hs fun r hr => by
    have := hlt r hr
    rw [pack_lt (by omega) (by omega)]; unfold sentinel; omega
  have nd : (Diff3.rows t).Nodup := by
    have := rows_sorted W
    refine List.Pairwise.of_map (fun p : Nat × Nat => ((p.1 : Int), (p.2 : Int))) ?_ (this.imp (S := fun a b => a ≠ b) fun {a b} h e => by subst e; simp only [Pair.lt] at h; omega)
    intro a b hab e; exact hab (by rw [e])
  have nd2 : ((l.filter fun r => decide (r.1 = k)).map fun r => (r.2.1, r.2.2)).Nodup := by
    refine List.pairwise_map.2 ?_
    refine List.Pairwise.imp_of_mem (R := fun a b => a ≠ b) ?_ (hn.filter _)
    intro a b ha hb hab e
    have e1 : a.1 = k := by simpa using (List.mem_filter.1 ha).2
    have e2 : b.1 = k := by simpa using (List.mem_filter.1 hb).2
    simp only [Prod.mk.injEq] at e
    exact hab (Prod.ext (e1.trans e2.symm) (Prod.ext e.1 e.2))
  have hperm : (Diff3.rows t).Perm ((l.filter fun r => decide (r.1 = k)).map fun r => (r.2.1, r.2.2)) := by
    refine (List.perm_ext_iff_of_nodup nd nd2).2 fun p => ?_
    have M := mem_w (a := p.1) (b := p.2) (f := fun r => r.2.1) (g := fun r => r.2.2) (fun r hr => by have := hlt r hr; omega) hp
    rw [mem_rows W, List.mem_map]
    constructor
    · rintro ⟨x, hx, e⟩
      obtain ⟨r, h1, h2, h3, h4⟩ := M.1 ⟨x, hx, (congrArg Prod.fst e).symm, (congrArg Prod.snd e).symm⟩
      exact ⟨r, List.mem_filter.2 ⟨h1, by simpa using h2⟩, Prod.ext h3 h4⟩
    · rintro ⟨r, hr, e⟩
      obtain ⟨h1, h2⟩ := List.mem_filter.1 hr
      obtain ⟨x, hx, e1, e2⟩ := M.2 ⟨r, h1, by simpa using h2, by rw [← e], by rw [← e]⟩
      exact ⟨x, hx, Prod.ext e1.symm e2.symm⟩
  rw [hperm.length_eq, List.length_map]

theorem rows_count' {l : List T3} (hn : l.Nodup) (hlt : ∀ r ∈ l, r.2.1 < 2 ^ 32 - 1 ∧ r.2.2 < 2 ^ 32 - 1) {k : Nat} {t : List Nat}
    (hp : t.Perm (w21 l k)) (hs : t.Pairwise (· ≤ ·)) (hex : ∃ r ∈ l, r.1 = k) :
    (Diff3.rows t).length = (l.filter fun r => decide (r.1 = k)).length := by
  have hinj : ∀ a b : T3, ((a.1, a.2.2, a.2.1) : T3) = (b.1, b.2.2, b.2.1) → a = b := by
    intro a b e
    simp only [Prod.mk.injEq] at e
    exact Prod.ext e.1 (Prod.ext e.2.2 e.2.1)
  have hf : (l.map fun r : T3 => ((r.1, r.2.2, r.2.1) : T3)).filter (fun r => decide (r.1 = k)) = (l.filter fun r => decide (r.1 = k)).map fun r => (r.1, r.2.2, r.2.1) := by
    rw [List.filter_map]; rfl
  have := rows_count (l := l.map fun r => (r.1, r.2.2, r.2.1)) (k := k) (t := t)
    (List.pairwise_map.2 (hn.imp fun {a b} hab e => hab (hinj a b e)))
    (fun r hr => by
      obtain ⟨x, hx, rfl⟩ := List.mem_map.1 hr
      have := hlt x hx
      exact ⟨this.2, this.1⟩)
    (by unfold w12; rw [hf, List.map_map]; exact hp) hs
    (by obtain ⟨r, hr, e⟩ := hex; exact ⟨_, List.mem_map.2 ⟨r, hr, rfl⟩, e⟩)
  rw [this, hf, List.length_map]

/-- The keys in the tree of an update, with their numbers, are the term list of its triples. -/
theorem build_isTermList {S : Sorts} (hS : S.Ok) (rnd : Nat → Nat → Bool × Bool) (glob : Nat → List UInt8) {ts : List T3} (hn : ts.Nodup)
    (hids : ∀ t ∈ ts, t.1 < 2 ^ 32 - 1 ∧ t.2.1 < 2 ^ 32 - 1 ∧ t.2.2 < 2 ^ 32 - 1) (d : Order) :
    IsTermList ((ts.map T3.triple).map d.key) ((build S rnd glob ts (first d.idx)).keys.map fun k => ((k.key : Int), (k.n : Int))) := by
  obtain ⟨d', hd', hf, hk, -⟩ := Order.first_cases d
  rw [hf, hk, ← key_permRow]
  obtain ⟨f1, f2, eb⟩ := build_eq S rnd glob ts d'.idx
  rw [eb]
  generalize hl : ts.map (permRow d'.idx) = l
  have hnl : l.Nodup := by
    rw [← hl]
    exact List.pairwise_map.2 (hn.imp fun {a b} hab e => hab (permRow_inj _ e))
  have hlt : ∀ r ∈ l, r.2.1 < 2 ^ 32 - 1 ∧ r.2.2 < 2 ^ 32 - 1 := by
    intro r hr
    rw [← hl] at hr
    obtain ⟨t, ht, rfl⟩ := List.mem_map.1 hr
    exact (permRow_lt _ (hids t ht)).2
  have T := tables_all hS l
  obtain ⟨x, y, ks, e, hm, hall⟩ := fold_entries (rnd d'.idx) (tables S none [] [] (S.byKey l)) ⟨f1, f2, []⟩
  change sortIndex S (rnd d'.idx) f1 f2 l = _ at e
  change ∀ k ∈ ks, ∃ g ∈ _, Entry (rnd d'.idx) (sortIndex S (rnd d'.idx) f1 f2 l) g k at hall
  generalize sortIndex S (rnd d'.idx) f1 f2 l = O at *
  generalize tables S none [] [] (S.byKey l) = gs at *
  have hks : O.keys = ks := by rw [e]; rfl
  rw [hks]
  refine tabs_isTermList T ?_ fun q hq => ?_
  · rw [List.map_map]
    have := congrArg (List.map fun n : Nat => (n : Int)) hm
    rw [List.map_map, List.map_map] at this
    exact this
  · obtain ⟨k, hk, rfl⟩ := List.mem_map.1 hq
    obtain ⟨g, hg, E⟩ := hall k hk
    refine ⟨g, hg, by rw [← E.key], ?_⟩
    obtain ⟨p1, s1⟩ := T.t1 g hg
    obtain ⟨p2, s2⟩ := T.t2 g hg
    have e1 := rows_count hnl hlt p1 s1 (T.sound g hg)
    have e2 := rows_count' hnl hlt p2 s2 (T.sound g hg)
    simp only [E.n]
    split
    · rw [e2]
    · rw [e1]

end Trident.Upd
