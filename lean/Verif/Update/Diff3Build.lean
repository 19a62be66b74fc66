import Verif.Update.Diff3Proofs
import Verif.Props.Term
/-! Helper proofs for `sortIndex` and `createDiffIndex` (no property statements here). -/
namespace Trident.Diff3
open Load Strat

/-- What is asked of the calls of `std::sort`. -/
structure Sorts.Ok (S : Sorts) : Prop where
  byKey : ∀ l, (S.byKey l).Perm l ∧ (S.byKey l).Pairwise fun a b => a.1 ≤ b.1
  words : ∀ l, (S.words l).Perm l ∧ (S.words l).Pairwise (· ≤ ·)
  triples : SortsRows S.triples

variable {S : Sorts}

theorem sortGroup_spec (h : S.Ok) (l : List Nat) : (sortGroup S l).Perm l ∧ (sortGroup S l).Pairwise (· ≤ ·) := by
  match l with
  | [] => simp [sortGroup]
  | [x] => simp [sortGroup]
  | [x, y] =>
    simp only [sortGroup]
    by_cases hx : x > y
    · rw [if_pos hx]; exact ⟨List.Perm.swap _ _ _, by simp; omega⟩
    · rw [if_neg hx]; exact ⟨.refl _, by simp; omega⟩
  | x :: y :: z :: l => exact h.words _

/-- The words of the rows of a key. -/
def w12 (R : List T3) (k : Nat) : List Nat := (R.filter fun r => r.1 = k).map fun r => pack r.2.1 r.2.2
def w21 (R : List T3) (k : Nat) : List Nat := (R.filter fun r => r.1 = k).map fun r => pack r.2.2 r.2.1

/-- The tables are those of the rows. -/
structure TabsOf (R : List T3) (gs : List (Nat × List Nat × List Nat)) : Prop where
  keys : gs.Pairwise fun a b => a.1 < b.1
  sound : ∀ g ∈ gs, ∃ r ∈ R, r.1 = g.1
  complete : ∀ r ∈ R, ∃ g ∈ gs, g.1 = r.1
  t1 : ∀ g ∈ gs, g.2.1.Perm (w12 R g.1) ∧ g.2.1.Pairwise (· ≤ ·)
  t2 : ∀ g ∈ gs, g.2.2.Perm (w21 R g.1) ∧ g.2.2.Pairwise (· ≤ ·)

theorem filter_key_append {pre L : List T3} {k k' : Nat} (hp : ∀ r ∈ pre, r.1 = k) (h : k' ≠ k) :
    (pre ++ L).filter (fun r => r.1 = k') = L.filter fun r => r.1 = k' := by
  rw [List.filter_append, List.filter_eq_nil_iff.2, List.nil_append]
  intro r hr
  simp only [decide_eq_true_eq]
  rw [hp r hr]; exact fun e => h e.symm

theorem filter_key_self {pre L : List T3} {k : Nat} (hp : ∀ r ∈ pre, r.1 = k) (hL : ∀ r ∈ L, r.1 ≠ k) :
    (pre ++ L).filter (fun r => r.1 = k) = pre := by
  rw [List.filter_append, List.filter_eq_self.2, List.filter_eq_nil_iff.2, List.append_nil]
  · intro r hr; simp only [decide_eq_true_eq]; exact hL r hr
  · intro r hr; simp only [decide_eq_true_eq]; exact hp r hr

theorem tables_spec (h : S.Ok) (L : List T3) (k : Nat) (pre : List T3) (hpre : pre ≠ []) (hk : ∀ r ∈ pre, r.1 = k)
    (hL : L.Pairwise fun a b => a.1 ≤ b.1) (hkL : ∀ r ∈ L, k ≤ r.1) :
    TabsOf (pre ++ L) (tables S (some k) (pre.map fun r => pack r.2.1 r.2.2) (pre.map fun r => pack r.2.2 r.2.1) L) ∧
      ∀ g ∈ tables S (some k) (pre.map fun r => pack r.2.1 r.2.2) (pre.map fun r => pack r.2.2 r.2.1) L, k ≤ g.1 := by
  induction L generalizing k pre with
  | nil =>
    have e : tables S (some k) (pre.map fun r => pack r.2.1 r.2.2) (pre.map fun r => pack r.2.2 r.2.1) [] =
        [(k, S.words (pre.map fun r => pack r.2.1 r.2.2), S.words (pre.map fun r => pack r.2.2 r.2.1))] := by
      rw [tables]
      simp [hpre]
    rw [e]
    have ef : pre.filter (fun r => r.1 = k) = pre := List.filter_eq_self.2 fun r hr => by simpa using hk r hr
    refine ⟨⟨by simp, ?_, ?_, ?_, ?_⟩, ?_⟩
    · intro g hg
      rw [List.mem_singleton.1 hg]
      obtain ⟨r, hr⟩ := List.exists_mem_of_ne_nil _ hpre
      exact ⟨r, by simpa using hr, hk r hr⟩
    · intro r hr
      exact ⟨_, List.mem_singleton.2 rfl, (hk r (by simpa using hr)).symm⟩
    · intro g hg
      rw [List.mem_singleton.1 hg]
      simp only [w12, List.append_nil, ef]
      exact h.words _
    · intro g hg
      rw [List.mem_singleton.1 hg]
      simp only [w21, List.append_nil, ef]
      exact h.words _
    · intro g hg
      rw [List.mem_singleton.1 hg]; exact Nat.le_refl _
  | cons r L ih =>
    rw [List.pairwise_cons] at hL
    by_cases hr : r.1 = k
    · have e : tables S (some k) (pre.map fun r => pack r.2.1 r.2.2) (pre.map fun r => pack r.2.2 r.2.1) (r :: L) =
          tables S (some k) ((pre ++ [r]).map fun r => pack r.2.1 r.2.2) ((pre ++ [r]).map fun r => pack r.2.2 r.2.1) L := by
        rw [tables, if_pos (by rw [hr])]; simp
      rw [e]
      have := ih k (pre ++ [r]) (by simp) (by
        intro x hx
        rcases List.mem_append.1 hx with hx | hx
        · exact hk x hx
        · rw [List.mem_singleton.1 hx]; exact hr) hL.2 (fun x hx => by have := hL.1 x hx; omega)
      simpa using this
    · have hlt : k < r.1 := by have := hkL r (by simp); omega
      have e : tables S (some k) (pre.map fun r => pack r.2.1 r.2.2) (pre.map fun r => pack r.2.2 r.2.1) (r :: L) =
          (k, sortGroup S (pre.map fun r => pack r.2.1 r.2.2), sortGroup S (pre.map fun r => pack r.2.2 r.2.1)) ::
          tables S (some r.1) ([r].map fun r => pack r.2.1 r.2.2) ([r].map fun r => pack r.2.2 r.2.1) L := by
        rw [tables, if_neg (by simp; omega)]
        simp [hpre]
      rw [e]
      obtain ⟨i1, i2⟩ := ih r.1 [r] (by simp) (by simp) hL.2 hL.1
      generalize tables S (some r.1) ([r].map fun r => pack r.2.1 r.2.2) ([r].map fun r => pack r.2.2 r.2.1) L = T at *
      have i1 : TabsOf (r :: L) T := i1
      have hne : ∀ x ∈ r :: L, x.1 ≠ k := by
        intro x hx
        rcases List.mem_cons.1 hx with rfl | hx
        · exact hr
        · have := hL.1 x hx; omega
      have hTk : ∀ g ∈ T, g.1 ≠ k := fun g hg => by have := i2 g hg; omega
      refine ⟨⟨?_, ?_, ?_, ?_, ?_⟩, ?_⟩
      · refine List.pairwise_cons.2 ⟨fun g hg => ?_, i1.keys⟩
        have := i2 g hg
        simp only; omega
      · intro g hg
        rcases List.mem_cons.1 hg with rfl | hg
        · obtain ⟨r, hr⟩ := List.exists_mem_of_ne_nil _ hpre
          exact ⟨r, by simp [hr], hk r hr⟩
        · obtain ⟨x, hx, e⟩ := i1.sound g hg
          exact ⟨x, List.mem_append.2 (.inr hx), e⟩
      · intro x hx
        rcases List.mem_append.1 hx with hx | hx
        · exact ⟨_, List.mem_cons_self, (hk x hx).symm⟩
        · obtain ⟨g, hg, e⟩ := i1.complete x hx
          exact ⟨g, List.mem_cons.2 (.inr hg), e⟩
      · intro g hg
        rcases List.mem_cons.1 hg with rfl | hg
        · simp only [w12]; rw [filter_key_self hk hne]; exact sortGroup_spec h _
        · simp only [w12]; rw [filter_key_append hk (hTk g hg)]; exact i1.t1 g hg
      · intro g hg
        rcases List.mem_cons.1 hg with rfl | hg
        · simp only [w21]; rw [filter_key_self hk hne]; exact sortGroup_spec h _
        · simp only [w21]; rw [filter_key_append hk (hTk g hg)]; exact i1.t2 g hg
      · intro g hg
        rcases List.mem_cons.1 hg with rfl | hg
        · exact Nat.le_refl _
        · have := i2 g hg; omega

theorem tables_all (h : S.Ok) (l : List T3) : TabsOf l (tables S none [] [] (S.byKey l)) := by
  obtain ⟨h1, h2⟩ := h.byKey l
  have key : TabsOf (S.byKey l) (tables S none [] [] (S.byKey l)) := by
    generalize S.byKey l = R at *
    cases R with
    | nil => rw [tables]; exact ⟨by simp, by simp, by simp, by simp, by simp⟩
    | cons r R =>
      rw [List.pairwise_cons] at h2
      have e : tables S none [] [] (r :: R) = tables S (some r.1) ([r].map fun r => pack r.2.1 r.2.2) ([r].map fun r => pack r.2.2 r.2.1) R := by
        rw [tables, if_neg (by simp)]; simp
      rw [e]
      exact (tables_spec h R r.1 [r] (by simp) (by simp) h2.2 h2.1).1
  refine ⟨key.keys, fun g hg => ?_, fun r hr => key.complete r (h1.mem_iff.2 hr), fun g hg => ⟨?_, (key.t1 g hg).2⟩, fun g hg => ⟨?_, (key.t2 g hg).2⟩⟩
  · obtain ⟨r, hr, e⟩ := key.sound g hg
    exact ⟨r, h1.mem_iff.1 hr, e⟩
  · exact (key.t1 g hg).1.trans ((h1.filter _).map _)
  · exact (key.t2 g hg).1.trans ((h1.filter _).map _)

/-! ## The files -/

/-- The choice made for a key. -/
def cols (rnd : Nat → Bool × Bool) (g : Nat × List Nat × List Nat) : Bool × Bool := if g.2.1.length < 64 then (false, false) else rnd g.1

/-- The bytes of the two tables of a key. -/
def enc1 (rnd : Nat → Bool × Bool) (g : Nat × List Nat × List Nat) : List UInt8 :=
  if (cols rnd g).1 then colEncode (nbytes (maxHi g.2.1)) (nbytes (maxHi g.2.2)) g.2.1
  else rowEncode (flag (nbytes (maxHi g.2.1))) (flag (nbytes (maxHi g.2.2))) g.2.1
def enc2 (rnd : Nat → Bool × Bool) (g : Nat × List Nat × List Nat) : List UInt8 :=
  if (cols rnd g).2 then colEncode (nbytes (maxHi g.2.2)) (nbytes (maxHi g.2.1)) g.2.2
  else rowEncode (flag (nbytes (maxHi g.2.2))) (flag (nbytes (maxHi g.2.1))) g.2.2

/-- The entry of a key is right. -/
structure Entry (rnd : Nat → Bool × Bool) (O : Out) (g : Nat × List Nat × List Nat) (k : KeyInfo) : Prop where
  key : k.key = g.1
  at1 : ∃ p q, O.f1 = p ++ enc1 rnd g ++ q ∧ k.pos1 = p.length % 2 ^ 32
  at2 : ∃ p q, O.f2 = p ++ enc2 rnd g ++ q ∧ k.pos2 = p.length % 2 ^ 32
  n : k.n = if (cols rnd g).1 && !(cols rnd g).2 then (Diff3.rows g.2.2).length else (Diff3.rows g.2.1).length
  s1 : k.strat1 = if (cols rnd g).1 then colStrat else rowStrat (flag (nbytes (maxHi g.2.1))) (flag (nbytes (maxHi g.2.2)))
  s2 : k.strat2 = if (cols rnd g).2 then colStrat else rowStrat (flag (nbytes (maxHi g.2.2))) (flag (nbytes (maxHi g.2.1)))

theorem Entry.more {rnd O g k} (h : Entry rnd O g k) (x y : List UInt8) (ks : List KeyInfo) : Entry rnd ⟨O.f1 ++ x, O.f2 ++ y, ks⟩ g k := by
  obtain ⟨h1, ⟨p, q, e, e'⟩, ⟨p2, q2, e2, e2'⟩, h4, h5, h6⟩ := h
  exact ⟨h1, ⟨p, q ++ x, by simp [e], e'⟩, ⟨p2, q2 ++ y, by simp [e2], e2'⟩, h4, h5, h6⟩

theorem storeTables_entry (rnd : Nat → Bool × Bool) (st : Out) (g : Nat × List Nat × List Nat) :
    ∃ k, storeTables rnd st g = ⟨st.f1 ++ enc1 rnd g, st.f2 ++ enc2 rnd g, st.keys ++ [k]⟩ ∧ Entry rnd (storeTables rnd st g) g k :=
  ⟨_, rfl, rfl, ⟨st.f1, [], by rw [List.append_nil]; rfl, rfl⟩, ⟨st.f2, [], by rw [List.append_nil]; rfl, rfl⟩, rfl, rfl, rfl⟩

theorem fold_entries (rnd : Nat → Bool × Bool) (gs : List (Nat × List Nat × List Nat)) (st : Out) :
    ∃ x y ks, gs.foldl (storeTables rnd) st = ⟨st.f1 ++ x, st.f2 ++ y, st.keys ++ ks⟩ ∧ ks.map (·.key) = gs.map (·.1) ∧
      ∀ k ∈ ks, ∃ g ∈ gs, Entry rnd (gs.foldl (storeTables rnd) st) g k := by
  induction gs generalizing st with
  | nil => exact ⟨[], [], [], by simp, rfl, by simp⟩
  | cons g gs ih =>
    obtain ⟨k, e, hk⟩ := storeTables_entry rnd st g
    obtain ⟨x, y, ks, e', hm, hall⟩ := ih (storeTables rnd st g)
    refine ⟨enc1 rnd g ++ x, enc2 rnd g ++ y, k :: ks, ?_, ?_, ?_⟩
    · rw [List.foldl_cons, e', e]; simp
    · rw [List.map_cons, List.map_cons, hm, hk.key]
    · intro k' hk'
      rw [List.foldl_cons]
      rcases List.mem_cons.1 hk' with rfl | hk'
      · refine ⟨g, by simp, ?_⟩
        rw [e']; exact hk.more _ _ _
      · obtain ⟨g', hg', h'⟩ := hall k' hk'
        exact ⟨g', by simp [hg'], h'⟩

/-! ## An update opened -/

/-- The update answers lookups on the triples `ts`. -/
structure DiffOk (D : Diff) (ts : List Triple) : Prop where
  keys : ∀ d : Order, (D.tree d.idx).Pairwise fun a b => a.1 < b.1
  tables : ∀ d : Order, ∀ e ∈ D.tree d.idx, ∃ ps, PairsOf ts d e.1 ps ∧ DHolds D.mem (D.base d.idx) e.2 ps
  complete : ∀ d : Order, ∀ t ∈ ts, ∃ e ∈ D.tree d.idx, e.1 = d.key t

/-- The same for one order. -/
structure DiffOkAt (D : Diff) (d : Order) (ts : List Triple) : Prop where
  keys : (D.tree d.idx).Pairwise fun a b => a.1 < b.1
  tables : ∀ e ∈ D.tree d.idx, ∃ ps, PairsOf ts d e.1 ps ∧ DHolds D.mem (D.base d.idx) e.2 ps
  complete : ∀ t ∈ ts, ∃ e ∈ D.tree d.idx, e.1 = d.key t

theorem DiffOk.at {D : Diff} {ts : List Triple} (h : DiffOk D ts) (d : Order) : DiffOkAt D d ts := ⟨h.keys d, h.tables d, h.complete d⟩

theorem words_of {R : List T3} {k : Nat} {f : T3 → Nat} {t : List Nat} {r : T3} (hr : r ∈ R) (hrk : r.1 = k)
    (hperm : t.Perm ((R.filter fun r => r.1 = k).map f)) (hs : t.Pairwise (· ≤ ·)) (hlt : ∀ r ∈ R, f r < 2 ^ 64 ∧ f r ≠ sentinel) : Words t := by
  have hm : ∀ x ∈ t, ∃ r ∈ R, x = f r := by
    intro x hx
    obtain ⟨r, hr, e⟩ := List.mem_map.1 (hperm.mem_iff.1 hx)
    exact ⟨r, (List.mem_filter.1 hr).1, e.symm⟩
  refine ⟨hs, ?_, fun x hx => ?_, fun hh => ?_⟩
  · exact List.ne_nil_of_mem (hperm.mem_iff.2 (List.mem_map.2 ⟨r, List.mem_filter.2 ⟨hr, by simpa using hrk⟩, rfl⟩))
  · obtain ⟨r, hr, rfl⟩ := hm x hx
    exact (hlt r hr).1
  · obtain ⟨r, hr, e⟩ := hm _ (List.mem_of_mem_head? (Option.mem_def.2 hh))
    exact (hlt r hr).2 e.symm

theorem mem_w {R : List T3} {k a b : Nat} {f g : T3 → Nat} {t : List Nat} (hR : ∀ r ∈ R, f r < 2 ^ 32 ∧ g r < 2 ^ 32)
    (hperm : t.Perm ((R.filter fun r => r.1 = k).map fun r => pack (f r) (g r))) :
    (∃ x ∈ t, hi x = a ∧ lo x = b) ↔ ∃ r ∈ R, r.1 = k ∧ f r = a ∧ g r = b := by
  constructor
  · rintro ⟨x, hx, e1, e2⟩
    obtain ⟨r, hr, rfl⟩ := List.mem_map.1 (hperm.mem_iff.1 hx)
    obtain ⟨hr, hk⟩ := List.mem_filter.1 hr
    obtain ⟨b1, b2⟩ := hR r hr
    rw [hi_pack b1 b2] at e1
    rw [lo_pack b1 b2] at e2
    exact ⟨r, hr, by simpa using hk, e1, e2⟩
  · rintro ⟨r, hr, hk, rfl, rfl⟩
    obtain ⟨b1, b2⟩ := hR r hr
    exact ⟨_, hperm.mem_iff.2 (List.mem_map.2 ⟨r, List.mem_filter.2 ⟨hr, by simpa using hk⟩, rfl⟩), hi_pack b1 b2, lo_pack b1 b2⟩

theorem rows_swap_length {t t'} (h : Words t) (h' : Words t') (hs : Swapped t t') : (Diff3.rows t).length = (Diff3.rows t').length := by
  have nd : ∀ {t}, Words t → (Diff3.rows t).Nodup := by
    intro t h
    have := rows_sorted h
    refine List.Pairwise.of_map (fun p : Nat × Nat => ((p.1 : Int), (p.2 : Int))) ?_ (this.imp (S := fun a b => a ≠ b) fun {a b} h e => by subst e; simp only [Pair.lt] at h; omega)
    intro a b hab e; exact hab (by rw [e])
  have le : ∀ {t t'}, Words t → Words t' → Swapped t t' → (Diff3.rows t).length ≤ (Diff3.rows t').length := by
    intro t t' h h' hs
    have : ((Diff3.rows t).map fun p => (p.2, p.1)).length ≤ (Diff3.rows t').length := by
      apply length_le_of_nodup_subset
      · refine List.Pairwise.map _ ?_ (nd h)
        rintro ⟨a, b⟩ ⟨c, d⟩ hn e
        simp only [Prod.mk.injEq] at e
        exact hn (by rw [e.1, e.2])
      · intro p hp
        obtain ⟨q, hq, rfl⟩ := List.mem_map.1 hp
        obtain ⟨x, hx, rfl⟩ := (mem_rows h).1 hq
        obtain ⟨y, hy, e1, e2⟩ := (hs (hi x) (lo x)).1 ⟨x, hx, rfl, rfl⟩
        exact (mem_rows h').2 ⟨y, hy, by rw [e1, e2]⟩
    simpa using this
  exact Nat.le_antisymm (le h h' hs) (le h' h hs.symm)

theorem address {base pos : Nat} (h : pos < 2 ^ 31) : (base : Int) + toShort (pos % 2 ^ 32 / 2 ^ 16) * 2 ^ 16 + (pos % 2 ^ 32 % 2 ^ 16 : Nat) = ((base + pos : Nat) : Int) := by
  have e : pos % 2 ^ 32 = pos := Nat.mod_eq_of_lt (by omega)
  rw [e]
  unfold toShort
  rw [if_pos (by omega)]
  omega

/-- The two orders of one call of `sortIndex`. -/
theorem sortIndex_ok (hS : S.Ok) (rnd : Nat → Bool × Bool) (f1 f2 : List UInt8) {l : List T3} (hlt : ∀ r ∈ l, r.2.1 < 2 ^ 32 - 1 ∧ r.2.2 < 2 ^ 32 - 1)
    (hlen : l.length < 2 ^ 28) (hf1 : (sortIndex S rnd f1 f2 l).f1.length < 2 ^ 31) (hf2 : (sortIndex S rnd f1 f2 l).f2.length < 2 ^ 31)
    {m : Mem} {b1 b2 : Nat} (h1 : Placed m b1 (sortIndex S rnd f1 f2 l).f1) (h2 : Placed m b2 (sortIndex S rnd f1 f2 l).f2) :
    (sortIndex S rnd f1 f2 l).keys.Pairwise (fun a b => a.key < b.key) ∧
    (∀ r ∈ l, ∃ k ∈ (sortIndex S rnd f1 f2 l).keys, k.key = r.1) ∧
    ∀ k ∈ (sortIndex S rnd f1 f2 l).keys,
      (∃ ps : List (Nat × Nat), DHolds m b1 (k.coord false) (toI ps) ∧ ∀ a b, (a, b) ∈ ps ↔ ∃ r ∈ l, r.1 = k.key ∧ r.2.1 = a ∧ r.2.2 = b) ∧
      (∃ ps : List (Nat × Nat), DHolds m b2 (k.coord true) (toI ps) ∧ ∀ a b, (a, b) ∈ ps ↔ ∃ r ∈ l, r.1 = k.key ∧ r.2.2 = a ∧ r.2.1 = b) := by
  have T := tables_all hS l
  obtain ⟨x, y, ks, e, hm, hall⟩ := fold_entries rnd (tables S none [] [] (S.byKey l)) ⟨f1, f2, []⟩
  change sortIndex S rnd f1 f2 l = _ at e
  change ∀ k ∈ ks, ∃ g ∈ _, Entry rnd (sortIndex S rnd f1 f2 l) g k at hall
  generalize sortIndex S rnd f1 f2 l = O at *
  generalize tables S none [] [] (S.byKey l) = gs at *
  have hks : O.keys = ks := by rw [e]; rfl
  rw [hks]
  refine ⟨?_, fun r hr => ?_, fun k hk => ?_⟩
  · have : (gs.map (·.1)).Pairwise (· < ·) := List.pairwise_map.2 T.keys
    rw [← hm] at this
    exact List.pairwise_map.1 this
  · obtain ⟨g, hg, eg⟩ := T.complete r hr
    have : r.1 ∈ gs.map (·.1) := List.mem_map.2 ⟨g, hg, eg⟩
    rw [← hm] at this
    obtain ⟨k, hk, ek⟩ := List.mem_map.1 this
    exact ⟨k, hk, ek⟩
  · obtain ⟨g, hg, E⟩ := hall k hk
    obtain ⟨r0, hr0, er0⟩ := T.sound g hg
    obtain ⟨p1, s1⟩ := T.t1 g hg
    obtain ⟨p2, s2⟩ := T.t2 g hg
    have bnd : ∀ r ∈ l, r.2.1 < 2 ^ 32 ∧ r.2.2 < 2 ^ 32 := fun r hr => by have := hlt r hr; omega
    have bnd' : ∀ r ∈ l, r.2.2 < 2 ^ 32 ∧ r.2.1 < 2 ^ 32 := fun r hr => by have := hlt r hr; omega
    have W1 : Words g.2.1 := words_of hr0 er0 p1 s1 fun r hr => by
      have := hlt r hr
      rw [pack_lt (by omega) (by omega)]; unfold sentinel; omega
    have W2 : Words g.2.2 := words_of hr0 er0 p2 s2 fun r hr => by
      have := hlt r hr
      rw [pack_lt (by omega) (by omega)]; unfold sentinel; omega
    have M1 := fun a b => mem_w (a := a) (b := b) (f := fun r => r.2.1) (g := fun r => r.2.2) bnd p1
    have M2 := fun a b => mem_w (a := a) (b := b) (f := fun r => r.2.2) (g := fun r => r.2.1) bnd' p2
    have hsw : Swapped g.2.1 g.2.2 := by
      intro a b
      rw [M1, M2]
      constructor
      · rintro ⟨r, q1, q2, q3, q4⟩; exact ⟨r, q1, q2, q4, q3⟩
      · rintro ⟨r, q1, q2, q3, q4⟩; exact ⟨r, q1, q2, q4, q3⟩
    have L1 : g.2.1.length < 2 ^ 28 := by
      have := p1.length_eq
      rw [w12, List.length_map] at this
      have := List.length_filter_le (fun r : T3 => decide (r.1 = g.1)) l
      omega
    have L2 : g.2.2.length < 2 ^ 28 := by
      have := p2.length_eq
      rw [w21, List.length_map] at this
      have := List.length_filter_le (fun r : T3 => decide (r.1 = g.1)) l
      omega
    have hn := rows_swap_length W1 W2 hsw
    have mr : ∀ {t : List Nat} (W : Words t) (a b : Nat), (a, b) ∈ Diff3.rows t ↔ ∃ x ∈ t, hi x = a ∧ lo x = b := by
      intro t W a b
      rw [mem_rows W]
      constructor
      · rintro ⟨x, hx, e⟩; exact ⟨x, hx, (congrArg Prod.fst e).symm, (congrArg Prod.snd e).symm⟩
      · rintro ⟨x, hx, rfl, rfl⟩; exact ⟨x, hx, rfl⟩
    obtain ⟨u1, v1, f1eq, q1⟩ := E.at1
    obtain ⟨u2, v2, f2eq, q2⟩ := E.at2
    rw [f1eq] at h1 hf1
    rw [f2eq] at h2 hf2
    rw [placed_append, placed_append] at h1 h2
    simp only [List.length_append] at hf1 hf2
    constructor
    · refine ⟨Diff3.rows g.2.1, ?_, fun a b => by rw [mr W1, M1, E.key]⟩
      have ha : (b1 : Int) + (k.coord false).file * 2 ^ 16 + (k.coord false).mark = ((b1 + u1.length : Nat) : Int) := by
        show (b1 : Int) + toShort (k.pos1 / 2 ^ 16) * 2 ^ 16 + (k.pos1 % 2 ^ 16 : Nat) = _
        rw [q1]; exact address (by omega)
      cases hc : (cols rnd g).1 with
      | true =>
        have E1 : enc1 rnd g = colEncode (nbytes (maxHi g.2.1)) (nbytes (maxHi g.2.2)) g.2.1 := by simp [enc1, hc]
        rw [E1] at h1 hf1
        exact colEncode_holds W1 W2 hsw ha (by show k.strat1 = _; rw [E.s1]; simp [hc]) L1 (by omega) h1.1.2
      | false =>
        have E1 : enc1 rnd g = rowEncode (flag (nbytes (maxHi g.2.1))) (flag (nbytes (maxHi g.2.2))) g.2.1 := by simp [enc1, hc]
        rw [E1] at h1 hf1
        exact rowEncode_holds W1 W2 hsw ha (by show k.strat1 = _; rw [E.s1]; simp [hc]) (by show k.n = _; rw [E.n]; simp [hc]) h1.1.2
    · refine ⟨Diff3.rows g.2.2, ?_, fun a b => by rw [mr W2, M2, E.key]⟩
      have ha : (b2 : Int) + (k.coord true).file * 2 ^ 16 + (k.coord true).mark = ((b2 + u2.length : Nat) : Int) := by
        show (b2 : Int) + toShort (k.pos2 / 2 ^ 16) * 2 ^ 16 + (k.pos2 % 2 ^ 16 : Nat) = _
        rw [q2]; exact address (by omega)
      cases hc : (cols rnd g).2 with
      | true =>
        have E1 : enc2 rnd g = colEncode (nbytes (maxHi g.2.2)) (nbytes (maxHi g.2.1)) g.2.2 := by simp [enc2, hc]
        rw [E1] at h2 hf2
        exact colEncode_holds W2 W1 hsw.symm ha (by show k.strat2 = _; rw [E.s2]; simp [hc]) L2 (by omega) h2.1.2
      | false =>
        have E1 : enc2 rnd g = rowEncode (flag (nbytes (maxHi g.2.2))) (flag (nbytes (maxHi g.2.1))) g.2.2 := by simp [enc2, hc]
        rw [E1] at h2 hf2
        refine rowEncode_holds W2 W1 hsw.symm ha (by show k.strat2 = _; rw [E.s2]; simp [hc]) ?_ h2.1.2
        show k.n = _
        rw [E.n, hn, ite_self]

/-- What `createDiffIndex` can handle: ids below `2^32 - 1`, fewer than `2^24` triples (with more the column format may overflow the
block reserved for it, diffindex3.cpp:1298-1340), files below 2 GiB. -/
structure BuildOk (S : Sorts) (rnd : Nat → Nat → Bool × Bool) (glob : Nat → List UInt8) (ts : List T3) : Prop where
  sorts : S.Ok
  ids : ∀ t ∈ ts, t.1 < 2 ^ 32 - 1 ∧ t.2.1 < 2 ^ 32 - 1 ∧ t.2.2 < 2 ^ 32 - 1
  len : ts.length < 2 ^ 24
  size : ∀ d : Order, (fileOf (build S rnd glob ts) d.idx).length < 2 ^ 31

theorem build_eq (S : Sorts) (rnd : Nat → Nat → Bool × Bool) (glob : Nat → List UInt8) (ts : List T3) (i : Nat) :
    ∃ f1 f2, build S rnd glob ts i = sortIndex S (rnd i) f1 f2 (ts.map (permRow i)) := by
  unfold build
  split
  · exact ⟨_, _, rfl⟩
  · exact ⟨_, _, rfl⟩

theorem Order.first_cases (d : Order) : ∃ d' : Order, d'.idx < 3 ∧ first d.idx = d'.idx ∧ d.key = d'.key ∧
    ((d.idx < 3 ∧ d = d') ∨ (d.idx ≥ 3 ∧ d.idx = d'.idx + 3 ∧ ∀ t, d.pair t = ((d'.pair t).2, (d'.pair t).1))) := by
  by_cases h : d.idx < 3
  · exact ⟨d, h, by rw [first, if_pos h], rfl, .inl ⟨h, rfl⟩⟩
  · obtain ⟨d', h1, h2, h3⟩ := d.exists_partner (by omega)
    have : d.idx < 6 := by cases d <;> decide
    exact ⟨d', by omega, by rw [first, if_neg h, h1], h2, .inr ⟨by omega, by omega, h3⟩⟩

theorem BuildOk.diffOk {rnd : Nat → Nat → Bool × Bool} {glob : Nat → List UInt8} {ts : List T3} (h : BuildOk S rnd glob ts) (add : Bool)
    {m : Mem} {base : Nat → Nat} (hp : ∀ d : Order, Placed m (base d.idx) (fileOf (build S rnd glob ts) d.idx)) :
    DiffOk (openDiff add m base (build S rnd glob ts)) (ts.map T3.triple) := by
  have key : ∀ d : Order, d.idx < 3 →
      (build S rnd glob ts d.idx).keys.Pairwise (fun a b => a.key < b.key) ∧
      (∀ r ∈ ts.map (permRow d.idx), ∃ k ∈ (build S rnd glob ts d.idx).keys, k.key = r.1) ∧
      ∀ k ∈ (build S rnd glob ts d.idx).keys,
        (∃ ps : List (Nat × Nat), DHolds m (base d.idx) (k.coord false) (toI ps) ∧
          ∀ a b, (a, b) ∈ ps ↔ ∃ r ∈ ts.map (permRow d.idx), r.1 = k.key ∧ r.2.1 = a ∧ r.2.2 = b) ∧
        (∃ ps : List (Nat × Nat), DHolds m (base (d.idx + 3)) (k.coord true) (toI ps) ∧
          ∀ a b, (a, b) ∈ ps ↔ ∃ r ∈ ts.map (permRow d.idx), r.1 = k.key ∧ r.2.2 = a ∧ r.2.1 = b) := by
    intro d hd
    have e1 : fileOf (build S rnd glob ts) d.idx = (build S rnd glob ts d.idx).f1 := by rw [fileOf, if_pos hd]
    have e2 : fileOf (build S rnd glob ts) (d.idx + 3) = (build S rnd glob ts d.idx).f2 := by
      rw [fileOf, if_neg (by omega), Nat.add_sub_cancel]
    obtain ⟨d', hd'⟩ : ∃ d' : Order, d'.idx = d.idx + 3 := by
      cases d with
      | spo => exact ⟨.sop, rfl⟩
      | ops => exact ⟨.osp, rfl⟩
      | pos => exact ⟨.pso, rfl⟩
      | sop => simp [Order.idx] at hd
      | osp => simp [Order.idx] at hd
      | pso => simp [Order.idx] at hd
    have p1 := hp d; have p2 := hp d'; have s1 := h.size d; have s2 := h.size d'
    rw [hd', e2] at p2 s2
    rw [e1] at p1 s1
    obtain ⟨f1, f2, eb⟩ := build_eq S rnd glob ts d.idx
    rw [eb] at p1 p2 s1 s2 ⊢
    refine sortIndex_ok h.sorts _ _ _ ?_ (by have := h.len; rw [List.length_map]; omega) s1 s2 p1 p2
    intro r hr
    obtain ⟨t, ht, rfl⟩ := List.mem_map.1 hr
    exact (permRow_lt _ (h.ids t ht)).2
  have hmem : ∀ (d : Order) (k : Nat) (a b : Nat), (∃ r ∈ ts.map (permRow d.idx), r.1 = k ∧ r.2.1 = a ∧ r.2.2 = b) ↔
      ∃ t ∈ ts.map T3.triple, d.key t = k ∧ d.pair t = ((a : Int), (b : Int)) := by
    intro d k a b
    constructor
    · rintro ⟨r, hr, e1, e2, e3⟩
      obtain ⟨t, ht, rfl⟩ := List.mem_map.1 hr
      exact ⟨_, List.mem_map.2 ⟨t, ht, rfl⟩, by rw [← permRow_key, e1], by rw [← permRow_pair, e2, e3]⟩
    · rintro ⟨x, hx, e1, e2⟩
      obtain ⟨t, ht, rfl⟩ := List.mem_map.1 hx
      rw [← permRow_key] at e1
      rw [← permRow_pair] at e2
      simp only [Prod.mk.injEq] at e2
      exact ⟨_, List.mem_map.2 ⟨t, ht, rfl⟩, by omega, by omega, by omega⟩
  have hpairs : ∀ (d : Order) (k : Nat) (ps : List (Nat × Nat)), (∀ a b, (a, b) ∈ ps ↔ ∃ t ∈ ts.map T3.triple, d.key t = k ∧ d.pair t = ((a : Int), (b : Int))) →
      PairsOf (ts.map T3.triple) d k (toI ps) := by
    intro d k ps hps p
    constructor
    · intro hpp
      obtain ⟨q, hq, rfl⟩ := List.mem_map.1 hpp
      exact (hps q.1 q.2).1 hq
    · rintro ⟨t, ht, e1, e2⟩
      obtain ⟨u, hu, rfl⟩ := List.mem_map.1 ht
      rw [← permRow_pair] at e2
      refine List.mem_map.2 ⟨((permRow d.idx u).2.1, (permRow d.idx u).2.2), (hps _ _).2 ⟨_, ht, e1, (permRow_pair d u).symm⟩, e2⟩
  refine ⟨fun d => ?_, fun d e he => ?_, fun d t ht => ?_⟩
  · obtain ⟨d', hd', hf, -⟩ := Order.first_cases d
    show (List.map _ (build S rnd glob ts (first d.idx)).keys).Pairwise _
    rw [hf]
    exact List.pairwise_map.2 ((key d' hd').1.imp fun {a b} h => by simp only; omega)
  · obtain ⟨d', hd', hf, hk, hcase⟩ := Order.first_cases d
    change e ∈ List.map _ (build S rnd glob ts (first d.idx)).keys at he
    rw [hf] at he
    obtain ⟨k, hkm, rfl⟩ := List.mem_map.1 he
    obtain ⟨⟨ps, a1, a2⟩, ⟨qs, b1, b2⟩⟩ := (key d' hd').2.2 k hkm
    rcases hcase with ⟨hlt, rfl⟩ | ⟨hge, hidx, hpair⟩
    · refine ⟨toI ps, hpairs d k.key ps fun a b => (a2 a b).trans (hmem d k.key a b), ?_⟩
      simp only [show decide (d.idx ≥ 3) = false by simp; omega]
      exact a1
    · refine ⟨toI qs, hpairs d k.key qs fun a b => (b2 a b).trans ?_, ?_⟩
      · rw [show (∃ r ∈ ts.map (permRow d'.idx), r.1 = k.key ∧ r.2.2 = a ∧ r.2.1 = b) ↔ ∃ r ∈ ts.map (permRow d'.idx), r.1 = k.key ∧ r.2.1 = b ∧ r.2.2 = a from
          ⟨fun ⟨r, x, y, z, w⟩ => ⟨r, x, y, w, z⟩, fun ⟨r, x, y, z, w⟩ => ⟨r, x, y, w, z⟩⟩, hmem d' k.key b a]
        constructor
        · rintro ⟨t, x, y, z⟩
          exact ⟨t, x, by rw [hk]; exact y, by rw [hpair, z]⟩
        · rintro ⟨t, x, y, z⟩
          rw [hpair] at z
          simp only [Prod.mk.injEq] at z
          exact ⟨t, x, by rw [← hk]; exact y, Prod.ext z.2 z.1⟩
      · simp only [show decide (d.idx ≥ 3) = true by simp; omega]
        show DHolds m (base d.idx) _ _
        rw [hidx]
        exact b1
  · obtain ⟨d', hd', hf, hk, -⟩ := Order.first_cases d
    obtain ⟨u, hu, rfl⟩ := List.mem_map.1 ht
    obtain ⟨k, hkm, e⟩ := (key d' hd').2.1 _ (List.mem_map.2 ⟨u, hu, rfl⟩)
    refine ⟨_, List.mem_map.2 ⟨k, by rw [hf]; exact hkm, rfl⟩, ?_⟩
    rw [hk, ← permRow_key]
    simp only; omega

end Trident.Diff3
