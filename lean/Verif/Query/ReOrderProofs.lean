import Verif.Query.ReOrder
import Verif.Query.KBProofs
/-! Helper lemmas for queries in an order that is not stored. -/
namespace Trident
open Strat

/-- What is used of `TermItr::gotoKey`: it skips only keys less than the one asked for. -/
def SeekOk (G : KeySeek) : Prop :=
  ∀ k t, (t.rest.map (·.1)).Pairwise (· < ·) → ∃ pre, t.rest = pre ++ (G k t).rest ∧ ∀ e ∈ pre, e.1 < k

/-- The specification of the sort of the vectors by key. -/
def SortsKeys (sortK : ReOrder.KeySort) : Prop := ∀ l, (sortK l).Perm l ∧ (sortK l).Pairwise fun a b => a.1 ≤ b.1

namespace ReOrder

/-! ## Collecting the rows -/

/-- A set of states of the helper, with the rows to come, closed under reading; `Rd`: a row was just read. -/
structure Coll (H : Helper) (At : H.σ → List Row3 → Prop) (Rd : H.σ → Prop) : Prop where
  nil : ∀ s, At s [] → (H.I.hasNext s).1 = false
  cons : ∀ s r l, At s (r :: l) → (H.I.hasNext s).1 = true ∧ H.I.val (H.I.next (H.I.hasNext s).2) = r ∧
    At (H.I.next (H.I.hasNext s).2) l ∧ Rd (H.I.next (H.I.hasNext s).2)

/-- Jumping to the next key right after the row `r` was read. -/
def Jumps (H : Helper) (At : H.σ → List Row3 → Prop) (Rd : H.σ → Prop) : Prop :=
  ∀ s r l, At s l → Rd s → H.I.val s = r → (∀ x ∈ l, Row3.lt r x) →
    ∃ s' pre l', H.gk (r.1 + 1) s = some s' ∧ At s' l' ∧ l = pre ++ l' ∧ ∀ x ∈ pre, x.1 = r.1

theorem collect_eq {H : Helper} {At Rd} (hc : Coll H At Rd) (p o : Int) (hj : Jumps H At Rd ∨ p < 0) :
    ∀ n l s, At s l → l.length < n → l.Pairwise Row3.lt → collect H p o n s = some (l.filter (keeps p o)) := by
  intro n
  induction n with
  | zero => intro l s _ h; omega
  | succ n ih =>
    intro l s hs hl hp
    cases l with
    | nil =>
      rw [collect]; simp only [hc.nil s hs, Bool.false_eq_true, if_false, List.filter_nil]
    | cons r l =>
      obtain ⟨h1, h2, h3, h4⟩ := hc.cons s r l hs
      rw [List.pairwise_cons] at hp
      rw [List.length_cons] at hl
      rw [collect]
      simp only [h1, if_true, h2]
      by_cases hjm : jumps p r = true
      · rw [if_pos hjm]
        have hpp : p ≥ 0 ∧ r.2.1 > p := by simpa [jumps] using hjm
        rcases hj with hj | hj
        · obtain ⟨s', pre, l', g1, g2, rfl, g4⟩ := hj _ r l h3 h4 h2 hp.1
          rw [g1, Option.bind_some]
          rw [ih l' s' g2 (by rw [List.length_append] at hl; omega) (List.pairwise_append.1 hp.2).2.1]
          have hk : keeps p o r = false := by
            have : r.2.1 ≠ p := by omega
            simp [keeps, hpp.1, this]
          rw [List.filter_cons_of_neg (by simp [hk]), List.filter_append]
          have : pre.filter (keeps p o) = [] := by
            rw [List.filter_eq_nil_iff]
            intro x hx
            have hlt := hp.1 x (by simp [hx])
            have hx1 := g4 x hx
            have : x.2.1 ≠ p := by
              rcases hlt with h | ⟨-, h⟩
              · omega
              · simp only [Pair.lt] at h; omega
            simp [keeps, hpp.1, this]
          rw [this, List.nil_append]
        · omega
      · rw [if_neg hjm]
        have := ih l _ h3 (by omega) hp.2
        by_cases hk : keeps p o r = true
        · rw [if_pos hk, this, List.filter_cons_of_pos hk]; rfl
        · rw [if_neg hk, this, List.filter_cons_of_neg hk]

/-- Any iterator, without jumps. -/
theorem coll_yields (H : Helper) : Coll H (fun s l => Yields H.I s l) (fun _ => True) where
  nil s h := yields_nil.1 h
  cons s r l h := ⟨(yields_cons.1 h).1, (yields_cons.1 h).2.1, (yields_cons.1 h).2.2, trivial⟩

/-! ## The scan as a helper -/

/-- States of a scan of one list of tables. -/
def ScanAt (kb : KB) (ps : Int → List Pair) (s : Scan.St) (l : List Row3) : Prop :=
  s.i2 = none ∧ s.hnc = false ∧ ∃ c L, s.i1 = some ⟨c, L⟩ ∧ (L.map (·.1)).Pairwise (· < ·) ∧
    (∀ e ∈ L, Scan.Opens kb (Scan.openStored kb e.2) (ps e.1)) ∧
    ((s.cur = none ∧ l = Scan.rows ps L) ∨
      ∃ t qs, s.cur = some t ∧ Yields (Src.itr kb.mem) t qs ∧ l = qs.map (fun q => (s.key, q)) ++ Scan.rows ps L ∧ ∀ e ∈ L, s.key < e.1)

variable {kb : KB} {E : Env} {G : KeySeek}

/-- The helper of a scan. -/
def scanHelper (kb : KB) (E : Env) (G : KeySeek) (st : Scan.St) : Helper :=
  ⟨Scan.St, Scan.itr kb E, fun k t => some (Scan.gotoKey G k t), st⟩

theorem rows_cons {ps : Int → List Pair} {e : Int × Coord} {L} : Scan.rows ps (e :: L) = (ps e.1).map (fun q => (e.1, q)) ++ Scan.rows ps L := rfl

/-- From a state without open table. -/
theorem scanAt_key {ps : Int → List Pair} {i : TermSt} {hn key L} (hi : i.rest = L) (hL : (L.map (·.1)).Pairwise (· < ·))
    (ho : ∀ e ∈ L, Scan.Opens kb (Scan.openStored kb e.2) (ps e.1)) (s : Scan.St) (hs : Scan.hasNext kb s =
      Scan.moveKey ⟨some i, none, none, false, hn, key⟩) :
    (L = [] → (Scan.hasNext kb s).1 = false) ∧ ∀ e L', L = e :: L' → (Scan.hasNext kb s).1 = true ∧
      ∃ q qs, ps e.1 = q :: qs ∧ (Scan.itr kb E).val (Scan.next kb E (Scan.hasNext kb s).2) = (e.1, q) ∧
        ScanAt kb ps (Scan.next kb E (Scan.hasNext kb s).2) (qs.map (fun q => (e.1, q)) ++ Scan.rows ps L') ∧
        (Scan.next kb E (Scan.hasNext kb s).2).cur ≠ none := by
  constructor
  · rintro rfl
    rw [hs]
    simp [Scan.moveKey, hi]
  · rintro e L' rfl
    have hm : Scan.moveKey ⟨some i, none, none, false, hn, key⟩ = (true, ⟨some ⟨e, L'⟩, none, none, true, true, key⟩) := by
      simp [Scan.moveKey, hi]
    rw [hs, hm]
    obtain ⟨h1, h2⟩ := ho e (by simp)
    rw [List.map_cons, List.pairwise_cons] at hL
    cases hq : ps e.1 with
    | nil => exact absurd hq h2
    | cons q qs =>
      rw [hq] at h1
      obtain ⟨y1, y2, y3⟩ := yields_cons.1 h1
      refine ⟨rfl, q, qs, rfl, ?_, ?_, by simp [Scan.next]⟩
      · show (e.1, (Src.itr kb.mem).val (Scan.first kb (Scan.openStored kb e.2))) = _
        rw [Scan.first, y2]
      · refine ⟨rfl, rfl, e, L', rfl, hL.2, fun x hx => ho x (by simp [hx]), .inr ⟨_, qs, rfl, y3, rfl, ?_⟩⟩
        intro x hx
        exact hL.1 x.1 (List.mem_map.2 ⟨x, hx, rfl⟩)

theorem coll_scan (ps : Int → List Pair) (st : Scan.St) : Coll (scanHelper kb E G st) (ScanAt kb ps) (fun s => s.cur ≠ none) where
  nil s h := by
    obtain ⟨h1, h2, c, L, h3, h4, h5, h6⟩ := h
    obtain ⟨i1, i2, cur, hnc, hn, key⟩ := s
    dsimp only at *
    subst h1 h2 h3
    rcases h6 with ⟨rfl, h7⟩ | ⟨t, qs, rfl, h7, h8, -⟩
    · have hL : L = [] := by
        cases L with
        | nil => rfl
        | cons e L =>
          obtain ⟨-, h⟩ := h5 e (by simp)
          rw [rows_cons] at h7
          have := (List.append_eq_nil_iff.1 h7.symm).1
          exact absurd (List.map_eq_nil_iff.1 this) h
      subst hL
      rfl
    · obtain ⟨a, b⟩ := List.append_eq_nil_iff.1 h8.symm
      have ha := List.map_eq_nil_iff.1 a
      subst ha
      have hL : L = [] := by
        cases L with
        | nil => rfl
        | cons e L =>
          obtain ⟨-, h⟩ := h5 e (by simp)
          rw [rows_cons] at b
          exact absurd (List.map_eq_nil_iff.1 (List.append_eq_nil_iff.1 b).1) h
      subst hL
      have := yields_nil.1 h7
      show (Scan.hasNext kb _).1 = false
      simp [Scan.hasNext, this, Scan.moveKey]
  cons s r l h := by
    obtain ⟨h1, h2, c, L, h3, h4, h5, h6⟩ := h
    obtain ⟨i1, i2, cur, hnc, hn, key⟩ := s
    dsimp only at *
    subst h1 h2 h3
    have key_case : ∀ (s : Scan.St), Scan.hasNext kb s = Scan.moveKey ⟨some ⟨c, L⟩, none, none, false, hn, key⟩ →
        r :: l = Scan.rows ps L → (Scan.hasNext kb s).1 = true ∧
          (Scan.itr kb E).val (Scan.next kb E (Scan.hasNext kb s).2) = r ∧ ScanAt kb ps (Scan.next kb E (Scan.hasNext kb s).2) l ∧
            (Scan.next kb E (Scan.hasNext kb s).2).cur ≠ none := by
      intro s hs hl
      obtain ⟨-, hk⟩ := scanAt_key (E := E) rfl h4 h5 s hs
      cases L with
      | nil => simp [Scan.rows] at hl
      | cons e L =>
        obtain ⟨a, q, qs, e1, e2, e3, e4⟩ := hk e L rfl
        rw [rows_cons, e1, List.map_cons, List.cons_append, List.cons.injEq] at hl
        obtain ⟨rfl, rfl⟩ := hl
        exact ⟨a, e2, e3, e4⟩
    rcases h6 with ⟨rfl, h7⟩ | ⟨t, qs, rfl, h7, h8, h9⟩
    · exact key_case _ rfl h7
    · cases qs with
      | nil =>
        refine key_case _ ?_ (by simpa using h8)
        have := yields_nil.1 h7
        simp [Scan.hasNext, this]
      | cons q qs =>
        obtain ⟨y1, y2, y3⟩ := yields_cons.1 h7
        rw [List.map_cons, List.cons_append, List.cons.injEq] at h8
        obtain ⟨rfl, rfl⟩ := h8
        have hh : Scan.hasNext kb ⟨some ⟨c, L⟩, none, some t, false, hn, key⟩ =
            (true, ⟨some ⟨c, L⟩, none, some ((Src.itr kb.mem).hasNext t).2, true, true, key⟩) := by
          simp [Scan.hasNext, y1]
        show (Scan.hasNext kb _).1 = true ∧ (Scan.itr kb E).val (Scan.next kb E (Scan.hasNext kb _).2) = _ ∧
          ScanAt kb ps (Scan.next kb E (Scan.hasNext kb _).2) _ ∧ (Scan.next kb E (Scan.hasNext kb _).2).cur ≠ none
        rw [hh]
        refine ⟨rfl, ?_, ⟨rfl, rfl, c, L, rfl, h4, h5, .inr ⟨_, qs, rfl, y3, rfl, h9⟩⟩, by simp [Scan.next]⟩
        show (key, (Src.itr kb.mem).val _) = _
        rw [y2]

theorem jumps_scan (hG : SeekOk G) (ps : Int → List Pair) (st : Scan.St) : Jumps (scanHelper kb E G st) (ScanAt kb ps) (fun s => s.cur ≠ none) := by
  intro s r l hs hrd hv hlt
  obtain ⟨h1, h2, c, L, h3, h4, h5, h6⟩ := hs
  obtain ⟨i1, i2, cur, hnc, hn, key⟩ := s
  dsimp only at *
  subst h1 h2 h3
  have hr : r.1 = key := by rw [← hv]; rfl
  have hgk : (scanHelper kb E G st).gk (r.1 + 1) ⟨some ⟨c, L⟩, none, cur, false, hn, key⟩ =
      some ⟨some (G (r.1 + 1) ⟨c, L⟩), none, none, false, hn, key⟩ := by
    show some (Scan.gotoKey G _ _) = _
    unfold Scan.gotoKey
    rw [if_pos (by dsimp only; omega)]
    rfl
  rw [hgk]
  obtain ⟨pre, g1, g2⟩ := hG (r.1 + 1) ⟨c, L⟩ h4
  dsimp only at g1
  -- nothing is skipped
  have hkeys : ∀ e ∈ L, r.1 < e.1 := by
    rcases h6 with ⟨rfl, h7⟩ | ⟨t, qs, rfl, h7, h8, h9⟩
    · exact absurd rfl hrd
    · intro e he
      rw [hr]; exact h9 e he
  have hpre : pre = [] := by
    cases pre with
    | nil => rfl
    | cons e pre =>
      have a := g2 e (by simp)
      have b := hkeys e (by rw [g1]; simp)
      omega
  subst hpre
  rw [List.nil_append] at g1
  rcases h6 with ⟨rfl, h7⟩ | ⟨t, qs, rfl, h7, h8, h9⟩
  · exact absurd rfl hrd
  · refine ⟨_, qs.map fun q => (key, q), Scan.rows ps L, rfl, ⟨rfl, rfl, (G (r.1 + 1) ⟨c, L⟩).cur, L, ?_, h4, h5, .inl ⟨rfl, rfl⟩⟩, h8, ?_⟩
    · dsimp only
      generalize G (r.1 + 1) ⟨c, L⟩ = u at g1 ⊢
      rw [g1]
    · intro x hx
      obtain ⟨q, -, rfl⟩ := List.mem_map.1 hx
      exact hr.symm

/-! ## The vectors -/

/-- What `array` holds for the collected entries `xs`. -/
structure Holds (a : List (Nat × List (Nat × Nat))) (xs : List (Nat × (Nat × Nat))) : Prop where
  keys : (a.map (·.1)).Nodup
  vals : ∀ e ∈ a, e.2 = (xs.filter fun x => x.1 = e.1).map (·.2)
  complete : ∀ x ∈ xs, x.1 ∈ a.map (·.1)
  sound : ∀ k ∈ a.map (·.1), k ∈ xs.map (·.1)

theorem fillValue_keys (M : List (Nat × List (Nat × Nat))) (x : Nat × (Nat × Nat)) :
    ∀ k, k ∈ (fillValue M x).map (·.1) ↔ k ∈ M.map (·.1) ∨ k = x.1 := by
  induction M with
  | nil => intro k; simp [fillValue]
  | cons e M ih =>
    intro k
    rw [fillValue]
    by_cases h : e.1 = x.1
    · rw [if_pos h]
      simp only [List.map_cons, List.mem_cons]
      constructor
      · rintro (h1 | h1)
        · exact .inl (.inl h1)
        · exact .inl (.inr h1)
      · rintro ((h1 | h1) | h1)
        · exact .inl h1
        · exact .inr h1
        · exact .inl (h1.trans h.symm)
    · rw [if_neg h]
      simp only [List.map_cons, List.mem_cons, ih]
      constructor
      · rintro (h1 | h1 | h1)
        · exact .inl (.inl h1)
        · exact .inl (.inr h1)
        · exact .inr h1
      · rintro ((h1 | h1) | h1)
        · exact .inl h1
        · exact .inr (.inl h1)
        · exact .inr (.inr h1)

theorem fillValue_nodup (M : List (Nat × List (Nat × Nat))) (x : Nat × (Nat × Nat)) (h : (M.map (·.1)).Nodup) :
    ((fillValue M x).map (·.1)).Nodup := by
  induction M with
  | nil => simp [fillValue]
  | cons e M ih =>
    rw [List.map_cons, List.nodup_cons] at h
    rw [fillValue]
    by_cases he : e.1 = x.1
    · rw [if_pos he]
      rw [List.map_cons, List.nodup_cons]; exact h
    · rw [if_neg he, List.map_cons, List.nodup_cons]
      refine ⟨fun hm => ?_, ih h.2⟩
      rcases (fillValue_keys M x e.1).1 hm with h1 | h1
      · exact h.1 h1
      · exact he h1

theorem fillValue_mem (M : List (Nat × List (Nat × Nat))) (x : Nat × (Nat × Nat)) (h : (M.map (·.1)).Nodup) :
    ∀ e ∈ fillValue M x, (e ∈ M ∧ e.1 ≠ x.1) ∨ (e.1 = x.1 ∧ ((∃ v, (e.1, v) ∈ M ∧ e.2 = v ++ [x.2]) ∨ (e.1 ∉ M.map (·.1) ∧ e.2 = [x.2]))) := by
  induction M with
  | nil =>
    intro e he
    simp only [fillValue, List.mem_singleton] at he
    subst he
    exact .inr ⟨rfl, .inr ⟨by simp, rfl⟩⟩
  | cons y M ih =>
    rw [List.map_cons, List.nodup_cons] at h
    intro e he
    rw [fillValue] at he
    by_cases hy : y.1 = x.1
    · rw [if_pos hy] at he
      rcases List.mem_cons.1 he with rfl | he
      · exact .inr ⟨hy, .inl ⟨y.2, by simp, rfl⟩⟩
      · refine .inl ⟨by simp [he], fun h1 => h.1 ?_⟩
        rw [hy, ← h1]; exact List.mem_map.2 ⟨e, he, rfl⟩
    · rw [if_neg hy] at he
      rcases List.mem_cons.1 he with rfl | he
      · exact .inl ⟨by simp, hy⟩
      · rcases ih h.2 e he with ⟨h1, h2⟩ | ⟨h1, ⟨v, h2, h3⟩ | ⟨h2, h3⟩⟩
        · exact .inl ⟨by simp [h1], h2⟩
        · exact .inr ⟨h1, .inl ⟨v, by simp [h2], h3⟩⟩
        · refine .inr ⟨h1, .inr ⟨?_, h3⟩⟩
          rw [List.map_cons, List.mem_cons]
          rintro (h4 | h4)
          · exact hy (h4.symm.trans h1)
          · exact h2 h4

theorem holds_fold (xs : List (Nat × (Nat × Nat))) : Holds (xs.foldl fillValue []) xs := by
  suffices h : ∀ (ys : List (Nat × (Nat × Nat))) M zs, Holds M zs → Holds (ys.foldl fillValue M) (zs ++ ys) by
    simpa using h xs [] [] ⟨by simp, by simp, by simp, by simp⟩
  intro ys
  induction ys with
  | nil => intro M zs h; simpa using h
  | cons y ys ih =>
    intro M zs h
    rw [List.foldl_cons]
    have := ih (fillValue M y) (zs ++ [y]) ?_
    · simpa using this
    · refine ⟨fillValue_nodup M y h.keys, ?_, ?_, ?_⟩
      · intro e he
        rw [List.filter_append, List.map_append]
        rcases fillValue_mem M y h.keys e he with ⟨h1, h2⟩ | ⟨h1, ⟨v, h2, h3⟩ | ⟨h2, h3⟩⟩
        · rw [← h.vals e h1]
          rw [List.filter_cons_of_neg (by simpa using Ne.symm h2)]
          simp
        · rw [h3, ← h.vals _ h2]
          rw [List.filter_cons_of_pos (by simpa using h1.symm)]
          simp
        · rw [h3]
          have : zs.filter (fun x => x.1 = e.1) = [] := by
            rw [List.filter_eq_nil_iff]
            intro x hx hk
            refine h2 ?_
            have := h.complete x hx
            rw [of_decide_eq_true hk] at this
            exact this
          rw [this]
          rw [List.filter_cons_of_pos (by simpa using h1.symm)]
          simp
      · intro x hx
        rw [fillValue_keys]
        rcases List.mem_append.1 hx with h1 | h1
        · exact .inl (h.complete x h1)
        · rw [List.mem_singleton] at h1; exact .inr (by rw [h1])
      · intro k hk
        rw [List.map_append, List.mem_append]
        rcases (fillValue_keys M y k).1 hk with h1 | h1
        · exact .inl (h.sound k h1)
        · exact .inr (by simp [h1])

theorem Holds.perm {a b : List (Nat × List (Nat × Nat))} {xs} (h : Holds a xs) (hp : b.Perm a) : Holds b xs where
  keys := (hp.map (·.1)).nodup_iff.2 h.keys
  vals e he := h.vals e (hp.mem_iff.1 he)
  complete x hx := (hp.map (·.1)).mem_iff.2 (h.complete x hx)
  sound k hk := h.sound k ((hp.map (·.1)).mem_iff.1 hk)

theorem Holds.ne_nil {a : List (Nat × List (Nat × Nat))} {xs} (h : Holds a xs) : ∀ e ∈ a, e.2 ≠ [] := by
  intro e he hn
  obtain ⟨x, hx, h1⟩ := List.mem_map.1 (h.sound e.1 (List.mem_map.2 ⟨e, he, rfl⟩))
  rw [h.vals e he, List.map_eq_nil_iff, List.filter_eq_nil_iff] at hn
  exact hn x hx (by simpa using h1)

/-! ## Reading the vectors -/

/-- The rows of the vectors. -/
def out (sortP : List (Nat × Nat) → List (Nat × Nat)) (a : List (Nat × List (Nat × Nat))) : List Row3 :=
  a.flatMap fun e => (toI (sortP e.2)).map fun q => ((e.1 : Int), q)

theorem skipEmpty_eq {a : List (Nat × List (Nat × Nat))} (h : ∀ e ∈ a, e.2 ≠ []) (i : Nat) :
    skipEmpty a i = (decide (i < a.length), i) := by
  rw [skipEmpty]
  by_cases hi : i < a.length
  · rw [dif_pos hi]
    have := List.length_pos_iff.2 (h a[i] (List.getElem_mem hi))
    rw [if_pos this, decide_eq_true hi]
  · rw [dif_neg hi, decide_eq_false hi]

variable {sortP : List (Nat × Nat) → List (Nat × Nat)} {a : List (Nat × List (Nat × Nat))}

/-- The next key. -/
theorem next_key {i : Nat} {o : Option (List (Nat × Nat) × Arr.St)} {key : Int} {s : St} (hs : atEnd s = (true, ⟨i, o, key⟩))
    (hidem : atEnd ⟨i, o, key⟩ = (true, ⟨i, o, key⟩)) (hne : ∀ e ∈ a, e.2 ≠ []) :
    hasNext a s = (decide (i < a.length), ⟨i, o, key⟩) ∧ ∀ (h : i < a.length), next sortP a ⟨i, o, key⟩ =
      ⟨i + 1, some (sortP a[i].2, (Arr.itr (sortP a[i].2)).next ((Arr.itr (sortP a[i].2)).hasNext (Arr.init (sortP a[i].2) (-1) (-1))).2), a[i].1⟩ := by
  constructor
  · unfold hasNext
    simp only [hs, if_true, skipEmpty_eq hne]
  · intro h
    unfold next
    simp only [hidem, if_true, List.getElem?_eq_getElem h]

theorem yields (hsort : SortsPairs sortP) (hne : ∀ e ∈ a, e.2 ≠ []) :
    ∀ n i, a.length - i = n → (∀ key, Yields (itr sortP a) ⟨i, none, key⟩ (out sortP (a.drop i))) ∧
      ∀ key l t qs, Yields (Arr.itr l) t qs → Yields (itr sortP a) ⟨i, some (l, t), key⟩ (qs.map (fun q => (key, q)) ++ out sortP (a.drop i)) := by
  intro n
  induction n with
  | zero =>
    intro i hi
    have hd : a.drop i = [] := List.drop_eq_nil_of_le (by omega)
    have hlt : ¬ i < a.length := by omega
    rw [hd]
    constructor
    · intro key
      have := (next_key (sortP := sortP) (a := a) (s := ⟨i, none, key⟩) rfl rfl hne).1
      exact .done (by show (hasNext a _).1 = false; rw [this]; exact decide_eq_false hlt)
    · intro key l t qs h
      induction h with
      | @done t h =>
        have := (next_key (sortP := sortP) (a := a) (s := ⟨i, some (l, t), key⟩) (o := some (l, ((Arr.itr l).hasNext t).2)) (key := key) (i := i)
          (by simp [atEnd, h]) (by have := Arr.idem l t; simp [atEnd, this, h]) hne).1
        exact .done (by show (hasNext a _).1 = false; rw [this]; exact decide_eq_false hlt)
      | @step t qs h1 h2 ih =>
        have hh : hasNext a ⟨i, some (l, t), key⟩ = (true, ⟨i, some (l, ((Arr.itr l).hasNext t).2), key⟩) := by
          simp [hasNext, atEnd, h1]
        have hn : next sortP a ⟨i, some (l, ((Arr.itr l).hasNext t).2), key⟩ = ⟨i, some (l, (Arr.itr l).next ((Arr.itr l).hasNext t).2), key⟩ := by
          have := Arr.idem l t
          simp [next, atEnd, this, h1]
        rw [List.map_cons, List.cons_append, yields_cons]
        show (hasNext a _).1 = true ∧ (itr sortP a).val (next sortP a (hasNext a _).2) = _ ∧ Yields (itr sortP a) (next sortP a (hasNext a _).2) _
        rw [hh]
        dsimp only
        rw [hn]
        exact ⟨rfl, rfl, ih⟩
  | succ n ih =>
    intro i hi
    have hlt : i < a.length := by omega
    obtain ⟨-, ih2⟩ := ih (i + 1) (by omega)
    have hdrop : a.drop i = a[i] :: a.drop (i + 1) := (List.getElem_cons_drop hlt).symm
    -- reading the first pair of the next key
    have hkey : ∀ o key s, atEnd s = (true, ⟨i, o, key⟩) → atEnd ⟨i, o, key⟩ = (true, ⟨i, o, key⟩) →
        Yields (itr sortP a) s (out sortP (a.drop i)) := by
      intro o key s h1 h2
      obtain ⟨k1, k2⟩ := next_key (sortP := sortP) h1 h2 hne
      have k2 := k2 hlt
      have hne' := hne a[i] (List.getElem_mem hlt)
      obtain ⟨sp, so⟩ := hsort a[i].2
      have hl : sortP a[i].2 ≠ [] := fun h => hne' (by rw [h] at sp; exact sp.nil_eq.symm)
      have hy := Arr.yields_all (toI_sorted so) hl
      rw [hdrop, out, List.flatMap_cons]
      obtain ⟨q, qs, hq⟩ : ∃ q qs, toI (sortP a[i].2) = q :: qs := by
        cases hx : toI (sortP a[i].2) with
        | nil => simp [toI] at hx; exact absurd hx hl
        | cons q qs => exact ⟨q, qs, rfl⟩
      rw [hq]
      rw [hq] at hy
      obtain ⟨y1, y2, y3⟩ := yields_cons.1 hy
      rw [List.map_cons, List.cons_append, yields_cons]
      show (hasNext a _).1 = true ∧ (itr sortP a).val (next sortP a (hasNext a _).2) = _ ∧ Yields (itr sortP a) (next sortP a (hasNext a _).2) _
      rw [k1]
      dsimp only
      rw [k2]
      refine ⟨decide_eq_true hlt, ?_, ih2 _ _ _ _ y3⟩
      show (((a[i].1 : Nat) : Int), (Arr.itr (sortP a[i].2)).val _) = _
      rw [← y2]; rfl
    constructor
    · intro key
      exact hkey none key _ rfl rfl
    · intro key l t qs h
      induction h with
      | @done t h =>
        refine hkey (some (l, ((Arr.itr l).hasNext t).2)) key _ ?_ ?_
        · simp [atEnd, h]
        · have := Arr.idem l t; simp [atEnd, this, h]
      | @step t qs h1 h2 ih =>
        have hh : hasNext a ⟨i, some (l, t), key⟩ = (true, ⟨i, some (l, ((Arr.itr l).hasNext t).2), key⟩) := by
          simp [hasNext, atEnd, h1]
        have hn : next sortP a ⟨i, some (l, ((Arr.itr l).hasNext t).2), key⟩ = ⟨i, some (l, (Arr.itr l).next ((Arr.itr l).hasNext t).2), key⟩ := by
          have := Arr.idem l t
          simp [next, atEnd, this, h1]
        rw [List.map_cons, List.cons_append, yields_cons]
        show (hasNext a _).1 = true ∧ (itr sortP a).val (next sortP a (hasNext a _).2) = _ ∧ Yields (itr sortP a) (next sortP a (hasNext a _).2) _
        rw [hh]
        dsimp only
        rw [hn]
        exact ⟨rfl, rfl, ih⟩

/-- The vectors in the order of their keys hold the entries, sorted. -/
theorem out_spec (hsort : SortsPairs sortP) {xs : List (Nat × (Nat × Nat))} (h : Holds a xs) (hs : a.Pairwise fun x y => x.1 ≤ y.1) (hn : xs.Nodup) :
    (out sortP a).Pairwise Row3.lt ∧ ∀ r : Row3, r ∈ out sortP a ↔ ∃ x ∈ xs, r = ((x.1 : Int), ((x.2.1 : Int), (x.2.2 : Int))) := by
  constructor
  · unfold out
    have hk := h.keys
    have hv : ∀ e ∈ a, SortedS (toI (sortP e.2)) := by
      intro e he
      obtain ⟨sp, so⟩ := hsort e.2
      refine (toI_sorted so).strict ?_
      refine List.pairwise_map.2 ?_
      have : (sortP e.2).Nodup := by
        rw [sp.nodup_iff, h.vals e he]
        refine List.pairwise_map.2 ((hn.filter _).imp_of_mem ?_)
        intro x y hx hy hxy e1
        have h1 : x.1 = e.1 := of_decide_eq_true (List.mem_filter.1 hx).2
        have h2 : y.1 = e.1 := of_decide_eq_true (List.mem_filter.1 hy).2
        exact hxy (Prod.ext (h1.trans h2.symm) e1)
      exact this.imp fun {x y} hxy e1 => by
        rw [Prod.mk.injEq] at e1
        exact hxy (Prod.ext (by omega) (by omega))
    clear h
    induction a with
    | nil => exact .nil
    | cons e a ih =>
      rw [List.pairwise_cons] at hs
      rw [List.map_cons, List.nodup_cons] at hk
      rw [List.flatMap_cons, List.pairwise_append]
      refine ⟨?_, ih hs.2 hk.2 (fun x hx => hv x (by simp [hx])), ?_⟩
      · exact List.pairwise_map.2 ((hv e (by simp)).imp fun h => .inr ⟨rfl, h⟩)
      · intro x hx y hy
        obtain ⟨q, -, rfl⟩ := List.mem_map.1 hx
        obtain ⟨f, hf, hy⟩ := List.mem_flatMap.1 hy
        obtain ⟨q', -, rfl⟩ := List.mem_map.1 hy
        have h1 := hs.1 f hf
        have h2 : e.1 ≠ f.1 := fun h => hk.1 (h ▸ List.mem_map.2 ⟨f, hf, rfl⟩)
        refine .inl ?_
        dsimp only
        omega
  · intro r
    unfold out
    rw [List.mem_flatMap]
    constructor
    · rintro ⟨e, he, hr⟩
      obtain ⟨q, hq, rfl⟩ := List.mem_map.1 hr
      obtain ⟨v, hv, rfl⟩ := List.mem_map.1 hq
      rw [(hsort e.2).1.mem_iff, h.vals e he] at hv
      obtain ⟨x, hx, rfl⟩ := List.mem_map.1 hv
      rw [List.mem_filter] at hx
      have : x.1 = e.1 := of_decide_eq_true hx.2
      exact ⟨x, hx.1, by rw [this]⟩
    · rintro ⟨x, hx, rfl⟩
      obtain ⟨e, he, h1⟩ := List.mem_map.1 (h.complete x hx)
      refine ⟨e, he, List.mem_map.2 ⟨((x.2.1 : Int), (x.2.2 : Int)), ?_, by rw [h1]⟩⟩
      refine List.mem_map.2 ⟨x.2, ?_, rfl⟩
      rw [(hsort e.2).1.mem_iff, h.vals e he]
      exact List.mem_map.2 ⟨x, List.mem_filter.2 ⟨hx, by simp [h1]⟩, rfl⟩

/-! ## All together -/

/-- Without a row that causes a jump. -/
theorem collect_noJump {H : Helper} {At Rd} (hc : Coll H At Rd) (p o : Int) :
    ∀ n l s, At s l → l.length < n → (∀ r ∈ l, jumps p r = false) → collect H p o n s = some (l.filter (keeps p o)) := by
  intro n
  induction n with
  | zero => intro l s _ h; omega
  | succ n ih =>
    intro l s hs hl hp
    cases l with
    | nil =>
      rw [collect]; simp only [hc.nil s hs, Bool.false_eq_true, if_false, List.filter_nil]
    | cons r l =>
      obtain ⟨h1, h2, h3, h4⟩ := hc.cons s r l hs
      rw [List.length_cons] at hl
      rw [collect]
      simp only [h1, if_true, h2, hp r (by simp), Bool.false_eq_true, if_false]
      have := ih l _ h3 (by omega) (fun x hx => hp x (by simp [hx]))
      by_cases hk : keeps p o r = true
      · rw [if_pos hk, this, List.filter_cons_of_pos hk]; rfl
      · rw [if_neg hk, this, List.filter_cons_of_neg hk]

theorem rearrange_row (d : Order) (hd : d ≠ .spo ∧ d ≠ .sop) (t : Triple) (h0 : ∀ x, 0 ≤ t.at x) :
    (((rearrange d.idx (Order.spo.row t)).1 : Int), (((rearrange d.idx (Order.spo.row t)).2.1 : Int), ((rearrange d.idx (Order.spo.row t)).2.2 : Int))) = d.row t := by
  cases d <;> simp_all [rearrange, Order.idx, Order.row, Order.key, Order.pair, Order.positions] <;> exact ⟨Int.max_eq_left (h0 _), Int.max_eq_left (h0 _), Int.max_eq_left (h0 _)⟩

theorem row_lt_ne {r r' : Row3} (h : Row3.lt r r') : r ≠ r' := by
  rintro rfl
  rcases h with h | ⟨-, h⟩
  · omega
  · simp only [Pair.lt] at h; omega

/-- The object over the collected rows lists the same triples in the order `d`. -/
theorem obj_returns {E : Env} (hE : SortsPairs E.sortP) {sortK : KeySort} (hK : SortsKeys sortK) (d : Order) (hd : d ≠ .spo ∧ d ≠ .sop)
    (H : Helper) (p o : Int) (rows : List Row3) (hc : collect H p o E.fuel H.s = some rows) (hr : rows.Pairwise Row3.lt) (T : Triple → Prop)
    (hT : ∀ r, r ∈ rows ↔ ∃ t, T t ∧ Order.spo.row t = r) (h0 : ∀ t, T t → ∀ x, 0 ≤ t.at x) :
    ∃ x out, obj E sortK H d.idx p o = some x ∧ x.Returns out ∧ out.Pairwise Row3.lt ∧ ∀ r, r ∈ out ↔ ∃ t, T t ∧ d.row t = r := by
  have hy := ((yields (sortP := E.sortP) (a := array sortK d.idx rows) hE ((holds_fold _).perm (hK _).1).ne_nil _ 0 rfl).1 0)
  refine ⟨⟨St, itr E.sortP (array sortK d.idx rows), moveto, ⟨0, none, 0⟩⟩, _, by unfold obj; rw [hc]; rfl, hy, ?_⟩
  · show (out E.sortP (array sortK d.idx rows)).Pairwise Row3.lt ∧ ∀ r, r ∈ out E.sortP (array sortK d.idx rows) ↔ _
    have hh := (holds_fold (rows.map (rearrange d.idx))).perm (hK _).1
    have hn : (rows.map (rearrange d.idx)).Nodup := by
      refine List.pairwise_map.2 (hr.imp_of_mem ?_)
      intro x y hx hy hlt he
      obtain ⟨t, ht, rfl⟩ := (hT x).1 hx
      obtain ⟨u, hu, rfl⟩ := (hT y).1 hy
      have a := rearrange_row d hd t (h0 t ht)
      rw [he, rearrange_row d hd u (h0 u hu)] at a
      exact row_lt_ne hlt (by rw [C20_injective d t u a.symm])
    obtain ⟨o1, o2⟩ := out_spec hE hh (hK _).2 hn
    refine ⟨o1, fun r => (o2 r).trans ?_⟩
    constructor
    · rintro ⟨x, hx, rfl⟩
      obtain ⟨y, hy, rfl⟩ := List.mem_map.1 hx
      obtain ⟨t, ht, rfl⟩ := (hT y).1 hy
      exact ⟨t, ht, (rearrange_row d hd t (h0 t ht)).symm⟩
    · rintro ⟨t, ht, rfl⟩
      exact ⟨_, List.mem_map.2 ⟨_, (hT _).2 ⟨t, ht, rfl⟩, rfl⟩, (rearrange_row d hd t (h0 t ht)).symm⟩

/-- What is kept of a row of SPO. -/
theorem keeps_iff (q : Pattern) (hq : q.Wf) (t : Triple) : keeps (argOfPos q.p) (argOfPos q.o) (Order.spo.row t) = true ↔
    (∀ v ∈ q.p, t.at .p = v) ∧ ∀ v ∈ q.o, t.at .o = v := by
  have hp : ∀ v ∈ q.p, 0 ≤ v := hq .p
  have ho : ∀ v ∈ q.o, 0 ≤ v := hq .o
  have e1 : (Order.spo.row t).2.1 = t.at .p := rfl
  have e2 : (Order.spo.row t).2.2 = t.at .o := rfl
  unfold keeps
  rw [e1, e2]
  have aux : ∀ (c : Option Int) (x : Int), (∀ v ∈ c, 0 ≤ v) → ((!(decide (argOfPos c ≥ 0) && decide (x ≠ argOfPos c))) = true ↔ ∀ v ∈ c, x = v) := by
    intro c x hc
    cases c with
    | none => simp [argOfPos]
    | some v =>
      have := hc v rfl
      by_cases hx : x = v <;> simp [argOfPos, this, hx]
  rw [Bool.and_eq_true, aux _ _ hp, aux _ _ ho]

end ReOrder

/-- The scan of SPO with its states. -/
theorem Loaded.scanAt {g : List Triple} {kb : KB} (h : Loaded kb g) (hp : kb.present 0 = true) (hg : g ≠ []) :
    ∃ s ps l, Scan.init kb 0 = some s ∧ ReOrder.ScanAt kb ps s l ∧ l.Pairwise Row3.lt ∧ ∀ r, r ∈ l ↔ ∃ t ∈ g, Order.spo.row t = r := by
  obtain ⟨t0, ht0⟩ := List.exists_mem_of_ne_nil _ hg
  have hfd := h.files .spo
  cases hfl : kb.files 0 with
  | none =>
    rw [show Order.spo.idx = 0 from rfl, hfl] at hfd
    obtain ⟨cs, e, q1, q2⟩ := h.complete .spo (by decide) hp t0 ht0
    rw [show Order.spo.idx = 0 from rfl] at q2
    rw [hfd _ _ q1] at q2
    simp at q2
  | some L =>
    rw [show Order.spo.idx = 0 from rfl, hfl] at hfd
    have hps : ∀ k, ∃ ps, ∀ e, (k, e) ∈ L → kb.Holds e ps ∧ PairsOf g .spo k ps := by
      intro k
      by_cases hk : ∃ e, (k, e) ∈ L
      · obtain ⟨e, he⟩ := hk
        obtain ⟨cs, q1, q2⟩ := (hfd.2 k e).1 he
        obtain ⟨ps, g1, g2⟩ := h.tables .spo _ _ _ q1 q2
        refine ⟨ps, fun e' he' => ?_⟩
        obtain ⟨cs', q1', q2'⟩ := (hfd.2 k e').1 he'
        rw [q1] at q1'
        obtain rfl := Option.some.inj q1'
        rw [q2] at q2'
        obtain rfl := Option.some.inj q2'
        exact ⟨g1, g2⟩
      · exact ⟨[], fun e he => absurd ⟨e, he⟩ hk⟩
    let P : Int → List Pair := fun k => Classical.choose (hps k)
    have hP : ∀ k e, (k, e) ∈ L → kb.Holds e (P k) ∧ PairsOf g .spo k (P k) := fun k => Classical.choose_spec (hps k)
    refine ⟨⟨some (Scan.termInit L), none, none, false, false, 0⟩, P, Scan.rows P L, ?_, ?_, ?_, ?_⟩
    · unfold Scan.init
      rw [if_neg (by decide), hfl]
    · exact ⟨rfl, rfl, (Scan.termInit L).cur, L, rfl, hfd.1, fun e he => Scan.opens_stored (hP e.1 e.2 he).1, .inl ⟨rfl, rfl⟩⟩
    · exact Scan.rows_sorted hfd.1 (fun e he => (hP e.1 e.2 he).1.sorted)
    · intro r
      rw [Scan.mem_rows]
      constructor
      · rintro ⟨hk, hr⟩
        obtain ⟨e, he, hek⟩ := List.mem_map.1 hk
        obtain ⟨k, e⟩ := e
        dsimp only at hek
        subst hek
        obtain ⟨t, ht, h1, h2⟩ := ((hP _ _ he).2 r.2).1 hr
        exact ⟨t, ht, Prod.ext h1 h2⟩
      · rintro ⟨t, ht, rfl⟩
        obtain ⟨cs, e, q1, q2⟩ := h.complete .spo (by decide) hp t ht
        have he := (hfd.2 _ e).2 ⟨cs, q1, q2⟩
        exact ⟨List.mem_map.2 ⟨_, he, rfl⟩, ((hP _ _ he).2 _).2 ⟨t, ht, rfl, rfl⟩⟩

/-- Rows of distinct triples are not more than the triples. -/
theorem rows_length {l : List Row3} {g : List Triple} (d : Order) (h : l.Pairwise Row3.lt) (hm : ∀ r ∈ l, ∃ t ∈ g, d.row t = r) : l.length ≤ g.length := by
  have := List.Nodup.length_le_of_subset (l₁ := l) (l₂ := g.map d.row) (h.imp ReOrder.row_lt_ne) (fun r hr => by
    obtain ⟨t, ht, e⟩ := hm r hr
    exact List.mem_map.2 ⟨t, ht, e⟩)
  simpa using this

end Trident
