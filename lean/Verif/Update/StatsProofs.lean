import Verif.Update.Stats
import Verif.Iter.TermProofs
/-!
# What `UpdateStats` counts
-/
namespace Trident
namespace Stats

variable {σ : Type} {I : Itr σ Pair}

/-- `currentkey` is at some key of `L`. -/
structure At (I : Itr σ Pair) (L : List Pair) (s : St σ) (don : List Pair) (c : Int) (rest : List Pair) : Prop where
  eq : L = don ++ (s.cur, c) :: rest
  yields : Yields I s.ex rest

theorem forward_spec (hid : Idem I) {L : List Pair} (key : Int) : ∀ (fuel : Nat) (s : St σ) (don : List Pair) (c : Int) (rest : List Pair),
    At I L s don c rest → rest.length < fuel → (∀ p ∈ don, p.1 < key) →
    ∃ don' c' rest', At I L (forward I key fuel s) don' c' rest' ∧ (∀ p ∈ don', p.1 < key) ∧ rest'.length ≤ rest.length ∧
      (key ≤ (forward I key fuel s).cur ∨ rest' = []) ∧ (forward I key fuel s).n = s.n ∧
      (I.val s.ex = (s.cur, c) → key ≤ (forward I key fuel s).cur → I.val (forward I key fuel s).ex = ((forward I key fuel s).cur, c')) := by
  intro fuel
  induction fuel with
  | zero => intro s don c rest _ h; omega
  | succ f ih =>
    intro s don c rest ha hf hd
    by_cases hlt : s.cur < key
    · cases hy : rest with
      | nil =>
        subst hy
        have hn : (I.hasNext s.ex).1 = false := yields_nil.1 ha.yields
        have hfw : forward I key (f + 1) s = { s with ex := (I.hasNext s.ex).2 } := by
          simp [forward, hlt, hn]
        rw [hfw]
        refine ⟨don, c, [], ⟨ha.eq, ha.yields.hasNext hid⟩, hd, by simp, .inr rfl, rfl, fun _ hle => ?_⟩
        have : key ≤ s.cur := hle
        omega
      | cons x xs =>
        subst hy
        obtain ⟨h1, h2, h3⟩ := yields_cons.1 ha.yields
        have hfw : forward I key (f + 1) s = forward I key f ⟨I.next (I.hasNext s.ex).2, (I.val (I.next (I.hasNext s.ex).2)).1, s.n⟩ := by
          simp [forward, hlt, h1]
        rw [hfw]
        obtain ⟨d', c', r', a1, a2, a3, a4, a5, a6⟩ := ih ⟨I.next (I.hasNext s.ex).2, (I.val (I.next (I.hasNext s.ex).2)).1, s.n⟩
          (don ++ [(s.cur, c)]) x.2 xs ⟨by rw [ha.eq]; simp [h2], h3⟩ (by simp at hf; omega) (by
            intro p hp
            rcases List.mem_append.1 hp with hp | hp
            · exact hd p hp
            · rw [List.mem_singleton.1 hp]; exact hlt)
        exact ⟨d', c', r', a1, a2, by simp; omega, a4, a5, fun _ hle => a6 (by simp [h2]) hle⟩
    · have hfw : forward I key (f + 1) s = s := by simp [forward, hlt]
      rw [hfw]
      exact ⟨don, c, rest, ha, hd, Nat.le_refl _, .inl (by omega), rfl, fun h _ => h⟩

theorem At.sorted {L s don c rest} (h : At I L s don c rest) (hL : (L.map (·.1)).Pairwise (· < ·)) :
    (∀ p ∈ don, p.1 < s.cur) ∧ (∀ p ∈ rest, s.cur < p.1) := by
  rw [h.eq, List.map_append, List.map_cons, List.pairwise_append] at hL
  obtain ⟨_, h2, h3⟩ := hL
  rw [List.pairwise_cons] at h2
  refine ⟨fun p hp => h3 p.1 (List.mem_map_of_mem hp) s.cur (by simp), fun p hp => h2.1 p.1 (List.mem_map_of_mem hp)⟩

theorem At.mem {L s don c rest} (h : At I L s don c rest) (hL : (L.map (·.1)).Pairwise (· < ·)) {key : Int}
    (hd : ∀ p ∈ don, p.1 < key) (hk : key ≤ s.cur ∨ rest = []) : key ∈ L.map (·.1) ↔ s.cur = key := by
  have hs := h.sorted hL
  constructor
  · intro hm
    rw [h.eq] at hm
    obtain ⟨p, hp, rfl⟩ := List.mem_map.1 hm
    rcases List.mem_append.1 hp with hp | hp
    · have := hd p hp; omega
    · rcases List.mem_cons.1 hp with rfl | hp
      · rfl
      · rcases hk with hk | hk
        · have := hs.2 p hp; omega
        · subst hk; simp at hp
  · intro e
    rw [h.eq]; simp [e]

/-- `UpdateStats_add` counts the keys that are not in the graph. -/
theorem addKeys_spec (hid : Idem I) {L : List Pair} (hL : (L.map (·.1)).Pairwise (· < ·)) (fuel : Nat) : ∀ (keys : List Pair) (s : St σ)
    (don : List Pair) (c : Int) (rest : List Pair), (keys.map (·.1)).Pairwise (· < ·) → At I L s don c rest → rest.length < fuel →
    (∀ k ∈ keys, ∀ p ∈ don, p.1 < k.1) →
    (keys.foldl (fun s k => addKey I fuel s k.1) s).n = s.n + (keys.filter fun k => decide (k.1 ∉ L.map (·.1))).length := by
  intro keys
  induction keys with
  | nil => intro s don c rest _ _ _ _; simp
  | cons k keys ih =>
    intro s don c rest hks ha hf hd
    rw [List.map_cons, List.pairwise_cons] at hks
    rw [List.foldl_cons]
    have hd' : ∀ k' ∈ keys, ∀ p ∈ don, p.1 < k'.1 := fun k' hk' => hd k' (by simp [hk'])
    by_cases hc : s.cur > k.1
    · have e : addKey I fuel s k.1 = { s with n := s.n + 1 } := by unfold addKey; rw [if_pos hc]
      have hnm : k.1 ∉ L.map (·.1) := fun hm => by
        have := (ha.mem hL (hd k (by simp)) (.inl (by omega))).1 hm
        omega
      rw [e, ih ⟨s.ex, s.cur, s.n + 1⟩ don c rest hks.2 ⟨ha.eq, ha.yields⟩ hf hd', List.filter_cons_of_pos (by simpa using hnm)]
      simp only [List.length_cons]; omega
    · obtain ⟨don', c', rest', a1, a2, a3, a4, a5, -⟩ := forward_spec hid k.1 fuel s don c rest ha hf (hd k (by simp))
      have hm := a1.mem hL a2 a4
      have hd2 : ∀ k' ∈ keys, ∀ p ∈ don', p.1 < k'.1 := fun k' hk' p hp => by
        have := a2 p hp
        have := hks.1 k'.1 (List.mem_map_of_mem hk')
        omega
      by_cases he : (forward I k.1 fuel s).cur = k.1
      · have e : addKey I fuel s k.1 = forward I k.1 fuel s := by
          unfold addKey; rw [if_neg hc]; simp only; rw [if_neg (by simpa using he)]
        have hin := hm.2 he
        rw [e, ih _ don' c' rest' hks.2 a1 (by omega) hd2, List.filter_cons_of_neg (by simpa using hin), a5]
      · have e : addKey I fuel s k.1 = ⟨(forward I k.1 fuel s).ex, (forward I k.1 fuel s).cur, (forward I k.1 fuel s).n + 1⟩ := by
          unfold addKey; rw [if_neg hc]; simp only; rw [if_pos he]
        have hnin : k.1 ∉ L.map (·.1) := fun h => he (hm.1 h)
        rw [e, ih ⟨(forward I k.1 fuel s).ex, (forward I k.1 fuel s).cur, (forward I k.1 fuel s).n + 1⟩ don' c' rest' hks.2 ⟨a1.eq, a1.yields⟩ (by omega) hd2, List.filter_cons_of_pos (by simpa using hnin)]
        simp only [List.length_cons, a5]; omega

/-- `UpdateStats_rm` counts the keys whose number of triples is the number of deleted ones. -/
theorem rmKeys_spec (hid : Idem I) {L : List Pair} (hL : (L.map (·.1)).Pairwise (· < ·)) (fuel : Nat) : ∀ (keys : List Pair) (s : St σ)
    (don : List Pair) (c : Int) (rest : List Pair), (keys.map (·.1)).Pairwise (· < ·) → At I L s don c rest → I.val s.ex = (s.cur, c) →
    rest.length < fuel → (∀ k ∈ keys, k.1 ∈ L.map (·.1)) → (∀ k ∈ keys, ∀ p ∈ don, p.1 < k.1) →
    (keys.foldl (fun s k => rmKey I fuel s k.1 k.2) s).n = s.n + (keys.filter fun k => decide (k ∈ L)).length := by
  intro keys
  induction keys with
  | nil => intro s don c rest _ _ _ _ _ _; simp
  | cons k keys ih =>
    intro s don c rest hks ha hv hf hm hd
    rw [List.map_cons, List.pairwise_cons] at hks
    rw [List.foldl_cons]
    obtain ⟨don', c', rest', a1, a2, a3, a4, a5, a6⟩ := forward_spec hid k.1 fuel s don c rest ha hf (hd k (by simp))
    have he := (a1.mem hL a2 a4).1 (hm k (by simp))
    have hv' := a6 hv (by omega)
    have hd2 : ∀ k' ∈ keys, ∀ p ∈ don', p.1 < k'.1 := fun k' hk' p hp => by
      have := a2 p hp
      have := hks.1 k'.1 (List.mem_map_of_mem hk')
      omega
    have hkL : k ∈ L ↔ c' = k.2 := by
      constructor
      · intro hk
        have hs := a1.sorted hL
        rw [a1.eq] at hk
        rcases List.mem_append.1 hk with hk | hk
        · have := hs.1 k hk; omega
        · rcases List.mem_cons.1 hk with hk | hk
          · rw [hk]
          · have := hs.2 k hk; omega
      · rintro rfl
        rw [a1.eq, he]; simp
    by_cases hz : c' = k.2
    · have e : rmKey I fuel s k.1 k.2 = ⟨(forward I k.1 fuel s).ex, (forward I k.1 fuel s).cur, (forward I k.1 fuel s).n + 1⟩ := by
        unfold rmKey; simp only; rw [if_pos (by rw [hv']; exact hz)]
      rw [e, ih ⟨(forward I k.1 fuel s).ex, (forward I k.1 fuel s).cur, (forward I k.1 fuel s).n + 1⟩ don' c' rest' hks.2 ⟨a1.eq, a1.yields⟩ hv' (by omega) (fun k' hk' => hm k' (by simp [hk'])) hd2,
        List.filter_cons_of_pos (by simpa using hkL.2 hz)]
      simp only [List.length_cons, a5]; omega
    · have e : rmKey I fuel s k.1 k.2 = forward I k.1 fuel s := by
        unfold rmKey; simp only; rw [if_neg (by rw [hv']; exact hz)]
      rw [e, ih _ don' c' rest' hks.2 a1 hv' (by omega) (fun k' hk' => hm k' (by simp [hk'])) hd2,
        List.filter_cons_of_neg (by simpa using fun h => hz (hkL.1 h)), a5]

theorem addKeys_empty (fuel : Nat) : ∀ (keys : List Pair) (s : St σ), (∀ k ∈ keys, k.1 < s.cur) →
    (keys.foldl (fun s k => addKey I fuel s k.1) s).n = s.n + keys.length := by
  intro keys
  induction keys with
  | nil => intro s _; simp
  | cons k keys ih =>
    intro s h
    have e : addKey I fuel s k.1 = { s with n := s.n + 1 } := by unfold addKey; rw [if_pos (h k (by simp))]
    rw [List.foldl_cons, e, ih ⟨s.ex, s.cur, s.n + 1⟩ (fun k' hk' => h k' (by simp [hk']))]
    simp only [List.length_cons]; omega

theorem start_at {s : σ} {x : Pair} {l : List Pair} (h : Yields I s (x :: l)) :
    At I (x :: l) (start I s) [] x.2 l ∧ I.val (start I s).ex = ((start I s).cur, x.2) ∧ (start I s).n = 0 := by
  obtain ⟨h1, h2, h3⟩ := yields_cons.1 h
  have e : start I s = ⟨I.next (I.hasNext s).2, (I.val (I.next (I.hasNext s).2)).1, 0⟩ := by simp [start, h1]
  rw [e]
  exact ⟨⟨by simp [h2], h3⟩, by simp [h2], rfl⟩

end Stats

open Stats

/-- The number stored with an addition is the number of its keys that the graph does not have. -/
theorem newKeys_add {ex : Obj} (hid : Idem ex.I) {L keys : List Pair} (hr : ex.Returns L) (hL : (L.map (·.1)).Pairwise (· < ·))
    (hk : (keys.map (·.1)).Pairwise (· < ·)) (hlt : ∀ k ∈ keys, k.1 < 2 ^ 32 - 1) (fuel : Nat) (hf : L.length ≤ fuel) :
    newKeys fuel true ex keys = (keys.filter fun k => decide (k.1 ∉ L.map (·.1))).length := by
  unfold newKeys
  simp only [if_true]
  cases L with
  | nil =>
    have hn : (ex.I.hasNext ex.s).1 = false := yields_nil.1 hr
    have e : start ex.I ex.s = ⟨(ex.I.hasNext ex.s).2, 2 ^ 32 - 1, 0⟩ := by simp [start, hn]
    rw [e, addKeys_empty fuel keys _ hlt, List.filter_eq_self.2 (by simp)]
    simp
  | cons x l =>
    obtain ⟨h1, -, h3⟩ := start_at hr
    rw [addKeys_spec hid hL fuel keys _ [] x.2 l hk h1 (by simp at hf; omega) (by simp), h3]
    simp

/-- The number stored with a deletion is the number of its keys that lose as many triples as the list of keys says they have. -/
theorem newKeys_rm {ex : Obj} (hid : Idem ex.I) {L keys : List Pair} (hr : ex.Returns L) (hL : (L.map (·.1)).Pairwise (· < ·))
    (hk : (keys.map (·.1)).Pairwise (· < ·)) (hm : ∀ k ∈ keys, k.1 ∈ L.map (·.1)) (fuel : Nat) (hf : L.length ≤ fuel) :
    newKeys fuel false ex keys = (keys.filter fun k => decide (k ∈ L)).length := by
  unfold newKeys
  simp only [Bool.false_eq_true, if_false]
  cases L with
  | nil =>
    cases keys with
    | nil =>
      have hn : (ex.I.hasNext ex.s).1 = false := yields_nil.1 hr
      have e : start ex.I ex.s = ⟨(ex.I.hasNext ex.s).2, 2 ^ 32 - 1, 0⟩ := by simp [start, hn]
      simp [e]
    | cons k keys => have := hm k (by simp); simp at this
  | cons x l =>
    obtain ⟨h1, h2, h3⟩ := start_at hr
    rw [rmKeys_spec hid hL fuel keys _ [] x.2 l hk h1 h2 (by simp at hf; omega) hm (by simp), h3]
    simp

/-! ## The list of keys can be asked twice -/

theorem cterm_idem (sort : Sorter) (cs : List Obj) : Idem (Obj.cterm sort cs).I := by
  intro s
  show CTerm.hasNext _ _ (CTerm.hasNext _ _ s).2 = CTerm.hasNext _ _ s
  have : ∀ s : CTerm.St (FamSt cs), (CTerm.hasNext (famItr cs) (sort cs) s).2.hnc = true ∧
      (CTerm.hasNext (famItr cs) (sort cs) s).2.nc = (CTerm.hasNext (famItr cs) (sort cs) s).1 := by
    intro s
    unfold CTerm.hasNext
    split
    · rename_i h; exact ⟨h, rfl⟩
    · split <;> exact ⟨rfl, rfl⟩
  obtain ⟨h1, h2⟩ := this s
  generalize CTerm.hasNext (famItr cs) (sort cs) s = r at *
  unfold CTerm.hasNext
  rw [if_pos h1, h2]

theorem rmterm_idem (fuel : Nat) (a b : Obj) : Idem (Obj.rmterm fuel a b).I := by
  intro s
  show RmTerm.hasNext _ _ _ (RmTerm.hasNext _ _ _ s).2 = RmTerm.hasNext _ _ _ s
  have : ∀ s : RmTerm.St a.σ b.σ, (RmTerm.hasNext a.I b.I fuel s).2.hnc = true ∧
      (RmTerm.hasNext a.I b.I fuel s).2.hn = (RmTerm.hasNext a.I b.I fuel s).1 := by
    intro s
    unfold RmTerm.hasNext
    split
    · rename_i h; exact ⟨h, rfl⟩
    · exact ⟨rfl, rfl⟩
  obtain ⟨h1, h2⟩ := this s
  generalize RmTerm.hasNext a.I b.I fuel s = r at *
  unfold RmTerm.hasNext
  rw [if_pos h1, h2]

theorem termList_idem (sort : Sorter) (fuel perm : Nat) {base : Obj} (hb : Idem base.I) (ds : List DiffTerms) :
    Idem (getTermList sort fuel perm base ds).I := by
  have : ∀ (ds : List DiffTerms) (f : FinalItr), Idem (f.obj sort).I → Idem ((ds.foldl (termListStep sort fuel perm) f).obj sort).I := by
    intro ds
    induction ds with
    | nil => intro f h; exact h
    | cons d ds ih =>
      intro f h
      rw [List.foldl_cons]
      refine ih _ ?_
      unfold termListStep
      by_cases hk : d.nkeys perm > 0
      · rw [if_pos hk]
        by_cases ha : d.isAdd = true
        · rw [if_pos ha]
          cases f <;> exact cterm_idem _ _
        · rw [if_neg ha]
          exact rmterm_idem _ _ _
      · rw [if_neg hk]; exact h
  exact this ds _ hb

end Trident
