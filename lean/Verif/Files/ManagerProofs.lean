import Verif.Files.MemoryProofs
/-! # The file manager: proofs -/
namespace Trident.Files

/-! ## Sessions -/

theorem sessionLoop_spec {ss : List Int} {S : Nat} : ∀ {fuel last cnt s : Nat}, sessionLoop ss S fuel last cnt = some s → ss[s]? = some (-3)
  | 0, _, _, _, h => by cases h
  | fuel + 1, last, cnt, s, h => by
    unfold sessionLoop at h
    by_cases h1 : ss[last]? = some (-3)
    · rw [if_pos h1] at h; cases h; exact h1
    · rw [if_neg h1] at h
      by_cases h2 : cnt + 1 > S
      · rw [if_pos h2] at h; cases h
      · rw [if_neg h2] at h; exact sessionLoop_spec h

theorem sessionLoop_found {ss : List Int} {S i : Nat} (hi : i < S) (hs : ss[i]? = some (-3)) : ∀ (fuel last cnt : Nat), last < S →
    (if last ≤ i then i - last else S - last + i) + cnt ≤ S → S + 1 < fuel + cnt → ∃ s, sessionLoop ss S fuel last cnt = some s
  | 0, _, _, _, h, hf => by omega
  | fuel + 1, last, cnt, hl, h, hf => by
    unfold sessionLoop
    by_cases h1 : ss[last]? = some (-3)
    · rw [if_pos h1]; exact ⟨last, rfl⟩
    · rw [if_neg h1]
      have hne : last ≠ i := by rintro rfl; exact h1 hs
      have hc : ¬ cnt + 1 > S := by
        by_cases h2 : last ≤ i
        · rw [if_pos h2] at h; omega
        · rw [if_neg h2] at h; omega
      rw [if_neg hc]
      apply sessionLoop_found hi hs _ _ _ (Nat.mod_lt _ (by omega))
      · by_cases h2 : last + 1 = S
        · rw [h2, Nat.mod_self, if_pos (by omega)]
          by_cases h3 : last ≤ i
          · omega
          · rw [if_neg h3] at h; omega
        · rw [Nat.mod_eq_of_lt (by omega)]
          by_cases h3 : last ≤ i
          · rw [if_pos h3] at h
            rw [if_pos (by omega)]; omega
          · rw [if_neg h3] at h
            rw [if_neg (by omega)]; omega
      · omega

/-! ## The invariant of a manager with a memory manager -/

/-- How often a slot is the current block of a session. -/
def uses (ss : List Int) (i : Nat) : Nat := ss.countP (· = (i : Int))

structure FInv (N S : Nat) (F : Fm) (m : Mm) : Prop where
  mm : F.mm = some m
  inv : MInv N m
  open_ : ∀ f v, F.opened f = some v → ∃ (i : Nat) (b : Blk), v = (i : Int) ∧ m.get i = some b ∧ b.owner = f
  owner : ∀ i b, m.get i = some b → F.opened b.owner = some (i : Int)
  lock : ∀ i b, m.get i = some b → b.lock = uses F.sessions i
  held : ∀ i : Nat, (i : Int) ∈ F.sessions → ∃ b, m.get i = some b
  len : F.sessions.length = S
  last : F.last < S

theorem uses_set : ∀ {ss : List Int} {s : Nat} {old : Int} (v : Int) (i : Nat), ss[s]? = some old →
    uses (ss.set s v) i + (if old = i then 1 else 0) = uses ss i + (if v = i then 1 else 0)
  | [], s, _, _, _, h => by simp at h
  | x :: l, 0, old, v, i, h => by
    simp at h
    subst h
    simp only [uses, List.set_cons_zero, List.countP_cons, decide_eq_true_eq]
    omega
  | x :: l, s + 1, old, v, i, h => by
    have := uses_set (ss := l) (s := s) v i (by simpa using h)
    simp only [uses, List.set_cons_succ, List.countP_cons, decide_eq_true_eq] at this ⊢
    omega

theorem uses_pos {ss : List Int} {i : Nat} (h : (i : Int) ∈ ss) : 0 < uses ss i :=
  List.countP_pos_iff.2 ⟨_, h, by simp⟩

theorem uses_zero {ss : List Int} {i : Nat} (h : uses ss i = 0) : (i : Int) ∉ ss := fun hm => by
  have := uses_pos hm; omega

theorem mem_set {ss : List Int} {s : Nat} {v w : Int} (h : w ∈ ss.set s v) : w = v ∨ w ∈ ss := by
  rcases List.mem_or_eq_of_mem_set h with h | h
  · exact .inr h
  · exact .inl h

theorem empty_finv {N S : Nat} (hS : 0 < S) : FInv N S (Fm.empty S (some (Mm.empty N))) (Mm.empty N) := by
  have hg : ∀ i, (Mm.empty N).get i = none := by
    intro i
    simp only [Mm.empty, Mm.get, List.getElem?_replicate]
    split <;> rfl
  refine ⟨rfl, empty_minv N, ?_, ?_, ?_, ?_, by simp [Fm.empty], hS⟩
  · intro f v h; cases h
  · intro i b h; rw [hg] at h; cases h
  · intro i b h; rw [hg] at h; cases h
  · intro i h
    have := (List.mem_replicate.1 h).2
    omega

theorem trimLoop_spec {F : Fm} : ∀ {fuel : Nat} {tr : List Nat} {idx : Nat} {first : Option Nat} {n : Int} {tr' : List Nat} {n' : Int} {f : Nat},
    trimLoop F fuel tr idx first n = some (tr', n', some f) → ∃ id, F.opened f = some id ∧ F.isUsed id = false
  | 0, _, _, _, _, _, _, _, h => by cases h
  | fuel + 1, tr, idx, first, n, tr', n', f, h => by
    unfold trimLoop at h
    cases e : F.opened idx with
    | none =>
      rw [e] at h
      cases tr with
      | nil => cases h
      | cons x tr =>
        simp only at h
        split at h
        · cases h
        · exact trimLoop_spec h
    | some id =>
      rw [e] at h
      simp only at h
      by_cases hu : F.isUsed id
      · rw [if_pos hu] at h
        cases e2 : tr ++ [idx] with
        | nil => simp at e2
        | cons x tr2 =>
          rw [e2] at h
          simp only at h
          split at h
          · cases h
          · exact trimLoop_spec h
      · rw [if_neg hu] at h
        cases h
        exact ⟨id, e, by simpa using hu⟩

/-- Closing a file that no session reads. -/
theorem trim_finv {N S : Nat} {maxFiles : Int} {F F' : Fm} {m : Mm} (h : FInv N S F m) (ht : F.trim maxFiles = some F') :
    ∃ m', FInv N S F' m' ∧ F'.sessions = F.sessions ∧ F'.last = F.last ∧
      ∀ f v, F.opened f = some v → (F'.opened f = some v ∨ (F'.opened f = none ∧ v ∉ F.sessions)) ∧ (F.opened f = none → F'.opened f = none) := by
  have triv : ∀ {F' : Fm}, F'.mm = F.mm → F'.opened = F.opened → F'.sessions = F.sessions → F'.last = F.last → ∃ m', FInv N S F' m' ∧ F'.sessions = F.sessions ∧ F'.last = F.last ∧
      ∀ f v, F.opened f = some v → (F'.opened f = some v ∨ (F'.opened f = none ∧ v ∉ F.sessions)) ∧ (F.opened f = none → F'.opened f = none) := by
    intro F' h1 h2 h3 h4
    refine ⟨m, ⟨by rw [h1, h.mm], h.inv, by rw [h2]; exact h.open_, by rw [h2]; exact h.owner, by rw [h3]; exact h.lock, by rw [h3]; exact h.held, by rw [h3]; exact h.len, by rw [h4]; exact h.last⟩, h3, h4, fun f v hf => ?_⟩
    rw [h2]
    exact ⟨.inl hf, id⟩
  unfold Fm.trim at ht
  by_cases hc : F.nOpened ≥ maxFiles
  · rw [if_pos hc] at ht
    cases e : F.tracker with
    | nil => rw [e] at ht; cases ht
    | cons x tr =>
      rw [e] at ht
      simp only at ht
      cases e2 : trimLoop F (2 * tr.length + 4) tr x none F.nOpened with
      | none => rw [e2] at ht; cases ht
      | some r =>
        obtain ⟨tr', n, r⟩ := r
        rw [e2] at ht
        cases r with
        | none => cases ht; exact triv rfl rfl rfl rfl
        | some f =>
          cases ht
          obtain ⟨id, ho, hu⟩ := trimLoop_spec e2
          obtain ⟨i, b, rfl, hb, rfl⟩ := h.open_ f id ho
          have hlk : ¬ b.lock > 0 := by
            simp only [Fm.isUsed, h.mm, Int.toNat_natCast, hb, decide_eq_false_iff_not] at hu
            exact hu
          have hu0 : uses F.sessions i = 0 := by have := h.lock i b hb; omega
          obtain ⟨d1, d2, -, -⟩ := drop_spec h.inv i
          refine ⟨m.drop i, ⟨?_, d1, ?_, ?_, ?_, ?_, h.len, h.last⟩, rfl, rfl, ?_⟩
          · simp [h.mm, ho]
          · intro g v hg
            simp only [setOpen] at hg
            split at hg
            · cases hg
            · next hne =>
              obtain ⟨j, c, rfl, hc1, hc2⟩ := h.open_ g v hg
              refine ⟨j, c, rfl, ?_, hc2⟩
              rw [d2, if_neg, hc1]
              rintro rfl
              rw [hb] at hc1
              cases hc1
              exact hne hc2.symm
          · intro j c hj
            rw [d2] at hj
            split at hj
            · cases hj
            · next hne =>
              have := h.owner j c hj
              simp only [setOpen]
              rw [if_neg, this]
              intro he
              rw [he, ho] at this
              injection this with this
              omega
          · intro j c hj
            rw [d2] at hj
            split at hj
            · cases hj
            · exact h.lock j c hj
          · intro j hj
            obtain ⟨c, hc1⟩ := h.held j hj
            refine ⟨c, ?_⟩
            rw [d2, if_neg, hc1]
            rintro rfl
            exact uses_zero hu0 hj
          · intro g v hg
            simp only [setOpen]
            refine ⟨?_, fun hn => ?_⟩
            · by_cases hgf : g = b.owner
              · rw [if_pos hgf]
                refine .inr ⟨rfl, ?_⟩
                rw [hgf, ho] at hg
                cases hg
                exact uses_zero hu0
              · rw [if_neg hgf]; exact .inl hg
            · split
              · rfl
              · exact hn
  · rw [if_neg hc] at ht
    cases ht
    exact triv rfl rfl rfl rfl

theorem mem_owners {m : Mm} {l : List Nat} {f : Nat} : f ∈ owners m l ↔ ∃ i ∈ l, ∃ b, m.get i = some b ∧ b.owner = f := by
  simp only [owners, List.mem_filterMap, Option.map_eq_some_iff]

theorem load_finv {N S : Nat} {max maxFiles : Int} (hN : 0 < N) {F F' : Fm} {m : Mm} {f size : Nat} (h : FInv N S F m) (hl : F.load N max maxFiles f size = some F') :
    ∃ m', FInv N S F' m' ∧ F'.sessions = F.sessions ∧ F'.last = F.last ∧ (∃ i : Nat, F'.opened f = some (i : Int)) ∧ ∀ g v, F.opened g = some v → v ∈ F.sessions → F'.opened g = some v := by
  unfold Fm.load at hl
  by_cases ho : (F.opened f).isSome
  · rw [if_pos ho] at hl
    cases hl
    obtain ⟨v, hv⟩ := Option.isSome_iff_exists.1 ho
    obtain ⟨i, b, rfl, -, -⟩ := h.open_ f v hv
    exact ⟨m, h, rfl, rfl, ⟨i, hv⟩, fun g v hg _ => hg⟩
  · rw [if_neg ho] at hl
    simp only [Option.bind_eq_bind] at hl
    cases ht : F.trim maxFiles with
    | none => rw [ht] at hl; cases hl
    | some F1 =>
      obtain ⟨m1, i1, s1, l1, o1⟩ := trim_finv h ht
      rw [ht] at hl
      simp only [Option.bind_some, i1.mm] at hl
      cases ha : m1.add N max size f with
      | none => rw [ha] at hl; cases hl
      | some r =>
        obtain ⟨m2, e, l⟩ := r
        rw [ha] at hl
        simp only [Option.bind_some] at hl
        cases hl
        obtain ⟨a1, a2, a3, a4, -⟩ := add_spec hN i1.inv ha
        -- `f` is not open after the trim
        have hfn : F1.opened f = none := by
          cases hf1 : F1.opened f with
          | none => rfl
          | some v =>
            exfalso
            have hfF : F.opened f = none := by simpa using ho
            unfold Fm.trim at ht
            split at ht
            · cases e3 : F.tracker with
              | nil => rw [e3] at ht; cases ht
              | cons x tr =>
                rw [e3] at ht
                simp only at ht
                cases e2 : trimLoop F (2 * tr.length + 4) tr x none F.nOpened with
                | none => rw [e2] at ht; cases ht
                | some r =>
                  obtain ⟨tr', n, r⟩ := r
                  rw [e2] at ht
                  cases r with
                  | none => cases ht; rw [hfF] at hf1; cases hf1
                  | some g =>
                    cases ht
                    simp only [setOpen] at hf1
                    split at hf1
                    · cases hf1
                    · rw [hfF] at hf1; cases hf1
            · cases ht; rw [hfF] at hf1; cases hf1
        -- slots in `l` are used by no session
        have hl0 : ∀ i ∈ l, (i : Int) ∉ F1.sessions := by
          intro i hi
          obtain ⟨x, hx, hlk⟩ := a2 i hi
          have := i1.lock i x hx
          exact uses_zero (by omega)
        have he0 : (e : Int) ∉ F1.sessions := by
          intro hm
          rcases a3 with a3 | a3
          · obtain ⟨b, hb⟩ := i1.held e hm
            rw [a3] at hb; cases hb
          · exact hl0 e a3 hm
        refine ⟨m2, ⟨rfl, a1, ?_, ?_, ?_, ?_, i1.len, i1.last⟩, s1, l1, ⟨e, by simp [setOpen]⟩, ?_⟩
        · intro g v hg
          simp only [setOpen] at hg
          by_cases hgf : g = f
          · rw [if_pos hgf] at hg
            cases hg
            exact ⟨e, ⟨f, size, 0⟩, rfl, by rw [a4, if_pos rfl], hgf.symm⟩
          · rw [if_neg hgf] at hg
            by_cases hgo : g ∈ owners m1 l
            · rw [if_pos hgo] at hg; cases hg
            · rw [if_neg hgo] at hg
              obtain ⟨i, b, rfl, hb, hbo⟩ := i1.open_ g v hg
              refine ⟨i, b, rfl, ?_, hbo⟩
              have hil : i ∉ l := fun hil => hgo (mem_owners.2 ⟨i, hil, b, hb, hbo⟩)
              have hie : i ≠ e := by
                rintro rfl
                rcases a3 with a3 | a3
                · rw [a3] at hb; cases hb
                · exact hil a3
              rw [a4, if_neg hie, if_neg hil, hb]
        · intro i b hb
          rw [a4] at hb
          by_cases hie : i = e
          · rw [if_pos hie] at hb
            cases hb
            simp [setOpen, hie]
          · rw [if_neg hie] at hb
            by_cases hil : i ∈ l
            · rw [if_pos hil] at hb; cases hb
            · rw [if_neg hil] at hb
              have hob := i1.owner i b hb
              have hbf : b.owner ≠ f := by
                intro hbf
                rw [hbf, hfn] at hob; cases hob
              simp only [setOpen]
              rw [if_neg hbf, if_neg, hob]
              intro hm
              obtain ⟨j, hj, c, hc, hco⟩ := mem_owners.1 hm
              have hoc := i1.owner j c hc
              rw [hco, hob] at hoc
              injection hoc with hoc
              have : i = j := by omega
              exact hil (this ▸ hj)
        · intro i b hb
          rw [a4] at hb
          by_cases hie : i = e
          · rw [if_pos hie] at hb
            cases hb
            rw [hie]
            show (0 : Int) = uses F1.sessions e
            have : ¬ 0 < uses F1.sessions e := fun hp => by
              obtain ⟨w, hw, hd⟩ := List.countP_pos_iff.1 hp
              simp at hd
              exact he0 (hd ▸ hw)
            omega
          · rw [if_neg hie] at hb
            split at hb
            · cases hb
            · exact i1.lock i b hb
        · intro i hi
          obtain ⟨b, hb⟩ := i1.held i hi
          have hil : i ∉ l := fun hil => hl0 i hil hi
          have hie : i ≠ e := by rintro rfl; exact he0 hi
          exact ⟨b, by rw [a4, if_neg hie, if_neg hil, hb]⟩
        · intro g v hg hv
          rcases (o1 g v hg).1 with h1 | h1
          · obtain ⟨i, b, rfl, hb, hbo⟩ := i1.open_ g v h1
            have hgf : g ≠ f := by rintro rfl; rw [hfn] at h1; cases h1
            simp only [setOpen]
            rw [if_neg hgf, if_neg, h1]
            intro hm
            obtain ⟨j, hj, c, hc, hco⟩ := mem_owners.1 hm
            have hoc := i1.owner j c hc
            rw [hco, h1] at hoc
            injection hoc with hoc
            have : i = j := by omega
            exact hl0 j hj (by rw [s1, ← this]; exact hv)
          · exact absurd hv h1.2

/-- The locks after the current block of a session changes. -/
theorem getBuffer_finv {N S : Nat} {max maxFiles : Int} (hN : 0 < N) {F F' : Fm} {m : Mm} {f size s : Nat} (h : FInv N S F m)
    (hl : F.getBuffer N max maxFiles f size s = some F') :
    ∃ m', FInv N S F' m' ∧ F'.last = F.last ∧ s < S ∧ (∃ v, F'.opened f = some v ∧ F'.sessions = F.sessions.set s v) ∧ ∀ g v, F.opened g = some v → v ∈ F.sessions → F'.opened g = some v := by
  unfold Fm.getBuffer at hl
  simp only [Option.bind_eq_bind] at hl
  cases hL : F.load N max maxFiles f size with
  | none => rw [hL] at hl; cases hl
  | some F1 =>
    obtain ⟨m1, i1, s1, l1, ⟨i, hi⟩, o1⟩ := load_finv hN h hL
    rw [hL] at hl
    simp only [Option.bind_some, hi] at hl
    cases hs : F1.sessions[s]? with
    | none => rw [hs] at hl; cases hl
    | some old =>
      rw [hs] at hl
      simp only [Option.bind_some, i1.mm] at hl
      have hsS : s < S := by have := (List.getElem?_eq_some_iff.1 hs).1; rw [i1.len] at this; exact this
      by_cases hne : old ≠ (i : Int)
      · rw [if_pos hne, if_pos (by omega : (i : Int) ≥ 0)] at hl
        -- one lock step
        have step : ∀ (m2 : Mm), MInv N m2 → (∀ j, (m2.get j).map (fun b => (b.owner, b.bytes)) = (m1.get j).map (fun b => (b.owner, b.bytes))) →
            (∀ j b, m2.get j = some b → b.lock = uses F1.sessions j - (if old = (j : Int) then 1 else 0)) →
            (m2.relock (i : Int).toNat 1).bind (fun m => some { F1 with mm := some m, sessions := F1.sessions.set s (i : Int) }) = some F' →
            ∃ m', FInv N S F' m' ∧ F'.last = F.last ∧ s < S ∧ (∃ v, F'.opened f = some v ∧ F'.sessions = F.sessions.set s v) ∧ ∀ g v, F.opened g = some v → v ∈ F.sessions → F'.opened g = some v := by
          intro m2 v2 g2 k2 hr
          have some2 : ∀ j b, m2.get j = some b → ∃ c, m1.get j = some c ∧ c.owner = b.owner := by
            intro j b hb
            have := g2 j
            rw [hb] at this
            cases hc : m1.get j with
            | none => rw [hc] at this; cases this
            | some c => rw [hc] at this; simp at this; exact ⟨c, rfl, this.1.symm⟩
          have some1 : ∀ j b, m1.get j = some b → ∃ c, m2.get j = some c ∧ c.owner = b.owner := by
            intro j b hb
            have := g2 j
            rw [hb] at this
            cases hc : m2.get j with
            | none => rw [hc] at this; cases this
            | some c => rw [hc] at this; simp at this; exact ⟨c, rfl, this.1⟩
          rw [Int.toNat_natCast] at hr
          cases hk : m2.relock i 1 with
          | none => rw [hk] at hr; cases hr
          | some m3 =>
            rw [hk] at hr
            cases hr
            obtain ⟨v3, x, hx, g3⟩ := relock_spec v2 hk
            have some3 : ∀ j b, m3.get j = some b → ∃ c, m2.get j = some c ∧ c.owner = b.owner ∧ b.lock = c.lock + (if j = i then 1 else 0) := by
              intro j b hb
              rw [g3] at hb
              split at hb
              · next hji => cases hb; exact ⟨x, hji ▸ hx, rfl, by simp [hji]⟩
              · next hji => exact ⟨b, hb, rfl, by simp [hji]⟩
            have some4 : ∀ j b, m2.get j = some b → ∃ c, m3.get j = some c ∧ c.owner = b.owner := by
              intro j b hb
              rw [g3]
              split
              · next hji => rw [hji, hx] at hb; cases hb; exact ⟨_, rfl, rfl⟩
              · exact ⟨b, hb, rfl⟩
            refine ⟨m3, ⟨rfl, v3, ?_, ?_, ?_, ?_, by simp [i1.len], i1.last⟩, l1, hsS, ⟨i, hi, by simp [s1]⟩, fun g v hg hv => o1 g v hg hv⟩
            · intro g v hg
              obtain ⟨j, b, rfl, hb, hbo⟩ := i1.open_ g v hg
              obtain ⟨c, hc, hco⟩ := some1 j b hb
              obtain ⟨d, hd, hdo⟩ := some4 j c hc
              exact ⟨j, d, rfl, hd, by rw [hdo, hco, hbo]⟩
            · intro j b hb
              obtain ⟨c, hc, hco, -⟩ := some3 j b hb
              obtain ⟨d, hd, hdo⟩ := some2 j c hc
              rw [← hco, ← hdo]
              exact i1.owner j d hd
            · intro j b hb
              obtain ⟨c, hc, hco, hcl⟩ := some3 j b hb
              have h1 := k2 j c hc
              have h2 := uses_set (i : Int) j hs
              show b.lock = uses (F1.sessions.set s (i : Int)) j
              rw [hcl, h1]
              have e1 : (if (i : Int) = (j : Int) then 1 else 0 : Nat) = (if j = i then 1 else 0 : Nat) := by split <;> split <;> omega
              have e2 : ((if old = (j : Int) then 1 else 0 : Nat) : Int) = (if old = (j : Int) then 1 else 0 : Int) := by split <;> rfl
              have e3 : ((if j = i then 1 else 0 : Nat) : Int) = (if j = i then 1 else 0 : Int) := by split <;> rfl
              omega
            · intro j hj
              rcases mem_set hj with hj | hj
              · have : j = i := by omega
                rw [this]
                obtain ⟨c, hc, -⟩ := some4 i x hx
                exact ⟨c, hc⟩
              · obtain ⟨b, hb⟩ := i1.held j hj
                obtain ⟨c, hc, -⟩ := some1 j b hb
                obtain ⟨d, hd, -⟩ := some4 j c hc
                exact ⟨d, hd⟩
        by_cases ho : old ≥ 0
        · rw [if_pos ho] at hl
          cases hk : m1.relock old.toNat (-1) with
          | none => rw [hk] at hl; cases hl
          | some m2 =>
            rw [hk] at hl
            simp only [Option.bind_some] at hl
            obtain ⟨v2, x, hx, g2⟩ := relock_spec i1.inv hk
            refine step m2 v2 (fun j => ?_) (fun j b hb => ?_) hl
            · rw [g2]
              split
              · next hj => rw [hj, hx]; rfl
              · rfl
            · rw [g2] at hb
              split at hb
              · next hj =>
                cases hb
                have := i1.lock _ x hx
                subst hj
                rw [if_pos (by omega)]
                simp only
                omega
              · next hj =>
                have := i1.lock j b hb
                rw [if_neg (by omega)]
                omega
        · rw [if_neg ho] at hl
          refine step m1 i1.inv (fun j => rfl) (fun j b hb => ?_) hl
          have := i1.lock j b hb
          rw [if_neg (by omega)]
          omega
      · rw [if_neg hne] at hl
        cases hl
        have he : old = (i : Int) := by omega
        refine ⟨m1, i1, l1, hsS, ⟨i, hi, ?_⟩, o1⟩
        rw [← s1]
        apply List.ext_getElem?
        intro k
        by_cases hk : k = s
        · rw [hk, List.getElem?_set_self (List.getElem?_eq_some_iff.1 hs).1, hs, he]
        · rw [List.getElem?_set_ne (fun e => hk e.symm)]

theorem newSession_spec {S : Nat} {F F' : Fm} {s : Nat} (h : F.newSession S = some (F', s)) :
    F.sessions[s]? = some (-3) ∧ F' = { F with sessions := F.sessions.set s (-2), last := (s + 1) % S } := by
  unfold Fm.newSession at h
  cases e : sessionLoop F.sessions S (S + 2) F.last 0 with
  | none => rw [e] at h; cases h
  | some t =>
    rw [e] at h
    cases h
    exact ⟨sessionLoop_spec e, rfl⟩

theorem newSession_finv {N S : Nat} {F F' : Fm} {m : Mm} {s : Nat} (hS : 0 < S) (h : FInv N S F m) (hn : F.newSession S = some (F', s)) : FInv N S F' m := by
  obtain ⟨h1, rfl⟩ := newSession_spec hn
  refine ⟨h.mm, h.inv, h.open_, h.owner, fun i b hb => ?_, fun i hi => ?_, by simp [h.len], Nat.mod_lt _ hS⟩
  · have h2 := uses_set (-2) i h1
    rw [if_neg (by omega), if_neg (by omega)] at h2
    have := h.lock i b hb
    show b.lock = uses (F.sessions.set s (-2)) i
    omega
  · rcases mem_set hi with hi | hi
    · omega
    · exact h.held i hi

theorem closeSession_finv {N S : Nat} {F F' : Fm} {m : Mm} {s : Nat} (h : FInv N S F m) (hc : F.closeSession s = some F') :
    s < S ∧ F'.sessions = F.sessions.set s (-3) ∧ F'.last = F.last ∧ F'.opened = F.opened ∧ ∃ m', FInv N S F' m' := by
  unfold Fm.closeSession at hc
  simp only [Option.bind_eq_bind] at hc
  cases hs : F.sessions[s]? with
  | none => rw [hs] at hc; cases hc
  | some old =>
    have hsS : s < S := by have := (List.getElem?_eq_some_iff.1 hs).1; rw [h.len] at this; exact this
    rw [hs] at hc
    simp only [Option.bind_some, h.mm] at hc
    by_cases ho : old ≥ 0
    · rw [if_pos ho] at hc
      cases hk : m.relock old.toNat (-1) with
      | none => rw [hk] at hc; cases hc
      | some m2 =>
        rw [hk] at hc
        cases hc
        obtain ⟨v2, x, hx, g2⟩ := relock_spec h.inv hk
        refine ⟨hsS, rfl, rfl, rfl, m2, rfl, v2, ?_, ?_, ?_, ?_, by simp [h.len], h.last⟩
        · intro g v hg
          obtain ⟨i, b, rfl, hb, hbo⟩ := h.open_ g v hg
          by_cases hi : i = old.toNat
          · rw [hi, hx] at hb
            cases hb
            exact ⟨i, { x with lock := x.lock + -1 }, rfl, by rw [g2, if_pos hi], hbo⟩
          · exact ⟨i, b, rfl, by rw [g2, if_neg hi, hb], hbo⟩
        · intro i b hb
          rw [g2] at hb
          split at hb
          · next hi => cases hb; rw [hi]; exact h.owner _ x hx
          · exact h.owner i b hb
        · intro i b hb
          have h2 := uses_set (-3) i hs
          rw [if_neg (by omega : ¬ (-3 : Int) = i)] at h2
          show b.lock = uses (F.sessions.set s (-3)) i
          rw [g2] at hb
          split at hb
          · next hi =>
            cases hb
            subst hi
            have := h.lock _ x hx
            rw [if_pos (by omega)] at h2
            simp only
            omega
          · next hi =>
            have := h.lock i b hb
            rw [if_neg (by omega)] at h2
            omega
        · intro i hi
          rcases mem_set hi with hi | hi
          · omega
          · obtain ⟨b, hb⟩ := h.held i hi
            by_cases hio : i = old.toNat
            · exact ⟨_, by rw [g2, if_pos hio]⟩
            · exact ⟨b, by rw [g2, if_neg hio, hb]⟩
    · rw [if_neg ho] at hc
      cases hc
      refine ⟨hsS, rfl, rfl, rfl, m, rfl, h.inv, h.open_, h.owner, fun i b hb => ?_, fun i hi => ?_, by simp [h.len], h.last⟩
      · have h2 := uses_set (-3) i hs
        rw [if_neg (by omega), if_neg (by omega)] at h2
        have := h.lock i b hb
        show b.lock = uses (F.sessions.set s (-3)) i
        omega
      · rcases mem_set hi with hi | hi
        · omega
        · exact h.held i hi

/-! ## Histories -/

theorem run_finv {N S : Nat} {max maxFiles : Int} (hN : 0 < N) (hS : 0 < S) {F F' : Fm} {m : Mm} {o : FOp} (h : FInv N S F m)
    (hr : F.run N S max maxFiles o = some F') : ∃ m', FInv N S F' m' := by
  cases o with
  | load f size => obtain ⟨m', h', -⟩ := load_finv hN h hr; exact ⟨m', h'⟩
  | read f size s => obtain ⟨m', h', -⟩ := getBuffer_finv hN h hr; exact ⟨m', h'⟩
  | newSession =>
    simp only [Fm.run] at hr
    cases e : F.newSession S with
    | none => rw [e] at hr; cases hr
    | some r =>
      obtain ⟨F1, s⟩ := r
      rw [e] at hr
      cases hr
      exact ⟨m, newSession_finv hS h e⟩
  | closeSession s => obtain ⟨-, -, -, -, h'⟩ := closeSession_finv h hr; exact h'

theorem runs_finv {N S : Nat} {max maxFiles : Int} (hN : 0 < N) (hS : 0 < S) : ∀ {ops : List FOp} {F F' : Fm} {m : Mm}, FInv N S F m →
    F.runs N S max maxFiles ops = some F' → ∃ m', FInv N S F' m'
  | [], _, _, m, h, hr => by cases hr; exact ⟨m, h⟩
  | o :: ops, F, F', m, h, hr => by
    simp only [Fm.runs] at hr
    cases e : F.run N S max maxFiles o with
    | none => rw [e] at hr; cases hr
    | some F1 =>
      rw [e] at hr
      obtain ⟨m1, h1⟩ := run_finv hN hS h e
      exact runs_finv hN hS h1 hr

theorem runs_append {N S : Nat} {max maxFiles : Int} : ∀ {a b : List FOp} {F F' : Fm}, F.runs N S max maxFiles (a ++ b) = some F' →
    ∃ F1, F.runs N S max maxFiles a = some F1 ∧ F1.runs N S max maxFiles b = some F'
  | [], b, F, F', h => ⟨F, rfl, h⟩
  | o :: a, b, F, F', h => by
    simp only [List.cons_append, Fm.runs] at h ⊢
    cases e : F.run N S max maxFiles o with
    | none => rw [e] at h; cases h
    | some F1 =>
      rw [e] at h
      exact runs_append h

/-- The call does not go through session `s`. -/
def FOp.avoids (s : Nat) : FOp → Prop
  | .read _ _ t => t ≠ s
  | .closeSession t => t ≠ s
  | _ => True

theorem run_stays {N S : Nat} {max maxFiles : Int} (hN : 0 < N) {F F' : Fm} {m : Mm} {o : FOp} {f s i : Nat} (h : FInv N S F m)
    (hr : F.run N S max maxFiles o = some F') (hf : F.opened f = some (i : Int)) (hs : F.sessions[s]? = some (i : Int)) (ha : o.avoids s) :
    F'.opened f = some (i : Int) ∧ F'.sessions[s]? = some (i : Int) := by
  have hmem : (i : Int) ∈ F.sessions := List.mem_of_getElem? hs
  cases o with
  | load g size =>
    obtain ⟨m', h', hs', -, -, ho⟩ := load_finv hN h hr
    exact ⟨ho f i hf hmem, by rw [hs']; exact hs⟩
  | read g size t =>
    obtain ⟨m', h', -, -, ⟨v, -, hs'⟩, ho⟩ := getBuffer_finv hN h hr
    exact ⟨ho f i hf hmem, by rw [hs', List.getElem?_set_ne ha]; exact hs⟩
  | newSession =>
    simp only [Fm.run] at hr
    cases e : F.newSession S with
    | none => rw [e] at hr; cases hr
    | some r =>
      obtain ⟨F1, t⟩ := r
      rw [e] at hr
      cases hr
      obtain ⟨h1, rfl⟩ := newSession_spec e
      refine ⟨hf, ?_⟩
      rw [List.getElem?_set_ne]
      · exact hs
      · rintro rfl
        rw [hs] at h1
        injection h1 with h1
        omega
  | closeSession t =>
    obtain ⟨-, hs', -, ho, -⟩ := closeSession_finv h hr
    rw [ho]
    exact ⟨hf, by rw [hs', List.getElem?_set_ne ha]; exact hs⟩

theorem runs_stays {N S : Nat} {max maxFiles : Int} (hN : 0 < N) (hS : 0 < S) {f s i : Nat} : ∀ {ops : List FOp} {F F' : Fm} {m : Mm}, FInv N S F m →
    F.runs N S max maxFiles ops = some F' → F.opened f = some (i : Int) → F.sessions[s]? = some (i : Int) → (∀ o ∈ ops, o.avoids s) →
    F'.opened f = some (i : Int)
  | [], _, _, _, _, hr, hf, _, _ => by cases hr; exact hf
  | o :: ops, F, F', m, h, hr, hf, hs, ha => by
    simp only [Fm.runs] at hr
    cases e : F.run N S max maxFiles o with
    | none => rw [e] at hr; cases hr
    | some F1 =>
      rw [e] at hr
      obtain ⟨m1, h1⟩ := run_finv hN hS h e
      obtain ⟨a, b⟩ := run_stays hN h e hf hs (ha o (by simp))
      exact runs_stays hN hS h1 hr a b (fun o ho => ha o (by simp [ho]))

/-! ## Sessions in every mode -/

structure OInv (S : Nat) (F : Fm) : Prop where
  len : F.sessions.length = S
  last : F.last < S
  vals : ∀ f v, F.opened f = some v → -1 ≤ v

theorem trim_vals {S : Nat} {maxFiles : Int} {F F' : Fm} (h : OInv S F) (ht : F.trim maxFiles = some F') : OInv S F' ∧ F'.sessions = F.sessions := by
  unfold Fm.trim at ht
  split at ht
  · cases e3 : F.tracker with
    | nil => rw [e3] at ht; cases ht
    | cons x tr =>
      rw [e3] at ht
      simp only at ht
      cases e2 : trimLoop F (2 * tr.length + 4) tr x none F.nOpened with
      | none => rw [e2] at ht; cases ht
      | some r =>
        obtain ⟨tr', n, r⟩ := r
        rw [e2] at ht
        cases r with
        | none => cases ht; exact ⟨⟨h.len, h.last, h.vals⟩, rfl⟩
        | some g =>
          cases ht
          refine ⟨⟨h.len, h.last, fun f v hf => ?_⟩, rfl⟩
          simp only [setOpen] at hf
          split at hf
          · cases hf
          · exact h.vals f v hf
  · cases ht; exact ⟨h, rfl⟩

theorem load_vals {N S : Nat} {max maxFiles : Int} {F F' : Fm} {f size : Nat} (h : OInv S F) (hl : F.load N max maxFiles f size = some F') :
    OInv S F' ∧ F'.sessions = F.sessions := by
  unfold Fm.load at hl
  split at hl
  · cases hl; exact ⟨h, rfl⟩
  · simp only [Option.bind_eq_bind] at hl
    cases ht : F.trim maxFiles with
    | none => rw [ht] at hl; cases hl
    | some F1 =>
      obtain ⟨h1, h2⟩ := trim_vals h ht
      rw [ht] at hl
      simp only [Option.bind_some] at hl
      cases hm : F1.mm with
      | none =>
        rw [hm] at hl
        cases hl
        refine ⟨⟨h1.len, h1.last, fun g v hg => ?_⟩, h2⟩
        simp only [setOpen] at hg
        split at hg
        · cases hg; omega
        · exact h1.vals g v hg
      | some m =>
        rw [hm] at hl
        simp only at hl
        cases ha : m.add N max size f with
        | none => rw [ha] at hl; cases hl
        | some r =>
          rw [ha] at hl
          cases hl
          refine ⟨⟨h1.len, h1.last, fun g v hg => ?_⟩, h2⟩
          simp only [setOpen] at hg
          split at hg
          · cases hg; omega
          · split at hg
            · cases hg
            · exact h1.vals g v hg

theorem getBuffer_vals {N S : Nat} {max maxFiles : Int} {F F' : Fm} {f size s : Nat} (h : OInv S F) (hl : F.getBuffer N max maxFiles f size s = some F') :
    OInv S F' ∧ s < S ∧ ∃ v, -1 ≤ v ∧ F'.sessions = F.sessions.set s v := by
  unfold Fm.getBuffer at hl
  simp only [Option.bind_eq_bind] at hl
  cases hL : F.load N max maxFiles f size with
  | none => rw [hL] at hl; cases hl
  | some F1 =>
    obtain ⟨h1, h2⟩ := load_vals h hL
    rw [hL] at hl
    simp only [Option.bind_some] at hl
    cases hv : F1.opened f with
    | none => rw [hv] at hl; cases hl
    | some v =>
      rw [hv] at hl
      simp only [Option.bind_some] at hl
      cases hs : F1.sessions[s]? with
      | none => rw [hs] at hl; cases hl
      | some old =>
        have hsS : s < S := by have := (List.getElem?_eq_some_iff.1 hs).1; rw [h1.len] at this; exact this
        rw [hs] at hl
        simp only [Option.bind_some] at hl
        have fin : ∀ m, F' = { F1 with mm := m, sessions := F1.sessions.set s v } → OInv S F' ∧ s < S ∧ ∃ v, -1 ≤ v ∧ F'.sessions = F.sessions.set s v := by
          rintro m rfl
          exact ⟨⟨by simp [h1.len], h1.last, h1.vals⟩, hsS, v, h1.vals f v hv, by simp [h2]⟩
        by_cases hne : old ≠ v
        · rw [if_pos hne] at hl
          cases hm : F1.mm with
          | none =>
            rw [hm] at hl
            cases hl
            exact fin none rfl
          | some m =>
            rw [hm] at hl
            simp only at hl
            have key : ∀ m2 : Mm, (if v ≥ 0 then (m2.relock v.toNat 1).bind fun m => some { F1 with mm := some m, sessions := F1.sessions.set s v }
                else some { F1 with mm := some m2, sessions := F1.sessions.set s v }) = some F' →
                OInv S F' ∧ s < S ∧ ∃ v, -1 ≤ v ∧ F'.sessions = F.sessions.set s v := by
              intro m2 hk
              split at hk
              · cases hr : m2.relock v.toNat 1 with
                | none => rw [hr] at hk; cases hk
                | some m3 => rw [hr] at hk; cases hk; exact fin _ rfl
              · cases hk; exact fin _ rfl
            by_cases ho : old ≥ 0
            · rw [if_pos ho] at hl
              cases hr : m.relock old.toNat (-1) with
              | none => rw [hr] at hl; cases hl
              | some m2 => rw [hr] at hl; exact key m2 hl
            · rw [if_neg ho] at hl
              exact key m hl
        · rw [if_neg hne] at hl
          cases hl
          have he : old = v := by simpa using hne
          refine ⟨h1, hsS, v, h1.vals f v hv, ?_⟩
          rw [← h2]
          apply List.ext_getElem?
          intro k
          by_cases hk : k = s
          · rw [hk, List.getElem?_set_self (List.getElem?_eq_some_iff.1 hs).1, hs, he]
          · rw [List.getElem?_set_ne (fun e => hk e.symm)]

theorem closeSession_vals {S : Nat} {F F' : Fm} {s : Nat} (h : OInv S F) (hc : F.closeSession s = some F') :
    OInv S F' ∧ s < S ∧ F'.sessions = F.sessions.set s (-3) := by
  unfold Fm.closeSession at hc
  simp only [Option.bind_eq_bind] at hc
  cases hs : F.sessions[s]? with
  | none => rw [hs] at hc; cases hc
  | some old =>
    have hsS : s < S := by have := (List.getElem?_eq_some_iff.1 hs).1; rw [h.len] at this; exact this
    rw [hs] at hc
    simp only [Option.bind_some] at hc
    have fin : ∀ m, F' = { F with mm := m, sessions := F.sessions.set s (-3) } → OInv S F' ∧ s < S ∧ F'.sessions = F.sessions.set s (-3) := by
      rintro m rfl
      exact ⟨⟨by simp [h.len], h.last, h.vals⟩, hsS, rfl⟩
    cases hm : F.mm with
    | none => rw [hm] at hc; cases hc; exact fin _ rfl
    | some m =>
      rw [hm] at hc
      simp only at hc
      split at hc
      · cases hr : m.relock old.toNat (-1) with
        | none => rw [hr] at hc; cases hc
        | some m2 => rw [hr] at hc; cases hc; exact fin _ rfl
      · cases hc; exact fin _ rfl

theorem newSession_vals {S : Nat} {F F' : Fm} {s : Nat} (hS : 0 < S) (h : OInv S F) (hn : F.newSession S = some (F', s)) :
    OInv S F' ∧ s < S ∧ F.sessions[s]? = some (-3) ∧ F'.sessions = F.sessions.set s (-2) := by
  obtain ⟨h1, rfl⟩ := newSession_spec hn
  have := (List.getElem?_eq_some_iff.1 h1).1
  rw [h.len] at this
  exact ⟨⟨by simp [h.len], Nat.mod_lt _ hS, h.vals⟩, this, h1, rfl⟩

theorem newSession_none {S : Nat} {F : Fm} (h : OInv S F) (hn : F.newSession S = none) {s : Nat} (hs : s < S) : F.sessions[s]? ≠ some (-3) := by
  intro hf
  have hl := h.last
  obtain ⟨t, ht⟩ := sessionLoop_found hs hf (S + 2) F.last 0 hl (by split <;> omega) (by omega)
  unfold Fm.newSession at hn
  rw [ht] at hn
  cases hn

theorem empty_oinv {S : Nat} (hS : 0 < S) (mm : Option Mm) : OInv S (Fm.empty S mm) := ⟨by simp [Fm.empty], hS, fun f v h => by cases h⟩

/-! ## A graph opened for reading -/

structure RInv (S : Nat) (F : Fm) : Prop where
  mm : F.mm = none
  tracked : ∀ f ∈ F.tracker, (F.opened f).isSome
  some_ : 0 < F.nOpened → F.tracker ≠ []
  len : F.sessions.length = S

theorem append_of_mem_first : ∀ {l : List Nat} {x : Nat}, x ∈ l → ∃ a b, l = a ++ x :: b ∧ x ∉ a
  | [], _, h => by simp at h
  | y :: l, x, h => by
    by_cases hy : y = x
    · exact ⟨[], l, by simp [hy], by simp⟩
    · obtain ⟨a, b, h1, h2⟩ := append_of_mem_first (l := l) (x := x) (by
        rcases List.mem_cons.1 h with h | h
        · exact absurd h.symm hy
        · exact h)
      refine ⟨y :: a, b, by simp [h1], fun hm => ?_⟩
      rcases List.mem_cons.1 hm with h | h
      · exact hy h.symm
      · exact h2 h

theorem trimLoop_all {F : Fm} (hm : F.mm = none) {first : Nat} (n : Int) : ∀ (k : Nat) (a b : List Nat) (idx fuel : Nat),
    a.length = k → k < fuel → (∀ f ∈ idx :: (a ++ b), (F.opened f).isSome) → first ∉ a →
    ∃ tr', trimLoop F fuel (a ++ first :: b) idx (some first) n = some (tr', n, none) ∧ (∀ f ∈ tr', (F.opened f).isSome) := by
  intro k
  induction k with
  | zero =>
    intro a b idx fuel ha hf ho hn
    obtain ⟨fuel, rfl⟩ : ∃ x, fuel = x + 1 := ⟨fuel - 1, by omega⟩
    have : a = [] := List.eq_nil_of_length_eq_zero ha
    subst this
    obtain ⟨v, hv⟩ := Option.isSome_iff_exists.1 (ho idx (by simp))
    unfold trimLoop
    rw [hv]
    simp only [Fm.isUsed, hm, if_true, List.nil_append, List.cons_append, Option.or_some, Option.getD_some]
    refine ⟨b ++ [idx], rfl, fun f hf => ?_⟩
    rcases List.mem_append.1 hf with hf | hf
    · exact ho f (by simp [hf])
    · rw [List.mem_singleton.1 hf]; exact ho idx (by simp)
  | succ k ih =>
    intro a b idx fuel ha hf ho hn
    obtain ⟨fuel, rfl⟩ : ∃ x, fuel = x + 1 := ⟨fuel - 1, by omega⟩
    cases a with
    | nil => simp at ha
    | cons x a =>
      obtain ⟨v, hv⟩ := Option.isSome_iff_exists.1 (ho idx (by simp))
      unfold trimLoop
      rw [hv]
      simp only [Fm.isUsed, hm, if_true, List.cons_append, Option.or_some, Option.getD_some]
      have hx : ¬ some x = some first := by
        intro e; cases e; exact hn (by simp)
      rw [if_neg hx]
      have := ih a (b ++ [idx]) x fuel (by simpa using ha) (by omega) (fun f hf => ho f (by
        simp at hf ⊢
        rcases hf with hf | hf | hf | hf <;> simp [hf])) (fun hm => hn (by simp [hm]))
      simpa using this

theorem trim_read {S : Nat} {maxFiles : Int} (hM : 0 < maxFiles) {F : Fm} (h : RInv S F) : ∃ F', F.trim maxFiles = some F' ∧
    F'.mm = none ∧ F'.opened = F.opened ∧ F'.sessions = F.sessions ∧ F'.last = F.last ∧ F'.nOpened = F.nOpened ∧ (∀ f ∈ F'.tracker, (F.opened f).isSome) := by
  unfold Fm.trim
  by_cases hc : F.nOpened ≥ maxFiles
  · rw [if_pos hc]
    cases e : F.tracker with
    | nil => exact absurd e (h.some_ (by omega))
    | cons x tr =>
      have ht : ∀ f ∈ x :: tr, (F.opened f).isSome := fun f hf => h.tracked f (by rw [e]; exact hf)
      have : ∃ tr', trimLoop F (2 * tr.length + 4) tr x none F.nOpened = some (tr', F.nOpened, none) ∧ (∀ f ∈ tr', (F.opened f).isSome) := by
        -- the first file is pushed back and becomes `first`
        obtain ⟨v, hv⟩ := Option.isSome_iff_exists.1 (ht x (by simp))
        show ∃ tr', trimLoop F ((2 * tr.length + 3) + 1) tr x none F.nOpened = _ ∧ _
        unfold trimLoop
        rw [hv]
        simp only [Fm.isUsed, h.mm, if_true]
        cases tr with
        | nil => exact ⟨[], by simp, by simp⟩
        | cons y tr =>
          simp only [List.cons_append]
          by_cases hy : some y = (none : Option Nat).or (some x)
          · rw [if_pos hy]
            refine ⟨_, rfl, fun f hf => ?_⟩
            rcases List.mem_append.1 hf with hf | hf
            · exact ht f (by simp [hf])
            · rw [List.mem_singleton.1 hf]; exact ht x (by simp)
          · rw [if_neg hy]
            -- split the rest at the next occurrence of `x`
            have hmem : x ∈ tr ++ [x] := by simp
            obtain ⟨a, b, hab, hna⟩ := append_of_mem_first hmem
            rw [hab]
            have hlen : a.length ≤ tr.length := by
              have := congrArg List.length hab
              simp at this
              omega
            refine trimLoop_all h.mm F.nOpened a.length a b y _ rfl (by simp; omega) (fun f hf => ?_) hna
            have : f = y ∨ f ∈ tr ++ [x] := by
              rw [hab]
              simp at hf ⊢
              rcases hf with hf | hf | hf <;> simp [hf]
            rcases this with rfl | hf
            · exact ht _ (by simp)
            · rcases List.mem_append.1 hf with hf | hf
              · exact ht f (by simp [hf])
              · rw [List.mem_singleton.1 hf]; exact ht x (by simp)
      obtain ⟨tr', h1, h2⟩ := this
      simp only [h1, Option.map_some]
      exact ⟨_, rfl, h.mm, rfl, rfl, rfl, rfl, h2⟩
  · rw [if_neg hc]
    exact ⟨F, rfl, h.mm, rfl, rfl, rfl, rfl, h.tracked⟩

theorem load_read {N S : Nat} {max maxFiles : Int} (hM : 0 < maxFiles) {F : Fm} (h : RInv S F) (f size : Nat) :
    ∃ F', F.load N max maxFiles f size = some F' ∧ RInv S F' ∧ F'.sessions = F.sessions ∧ (F'.opened f).isSome ∧ ∀ g v, F.opened g = some v → F'.opened g = some v := by
  unfold Fm.load
  by_cases ho : (F.opened f).isSome
  · rw [if_pos ho]
    exact ⟨F, rfl, h, rfl, ho, fun _ _ hg => hg⟩
  · rw [if_neg ho]
    obtain ⟨F1, h1, h2, h3, h4, h5, h6, h7⟩ := trim_read hM h
    simp only [Option.bind_eq_bind, h1, Option.bind_some, h2]
    refine ⟨_, rfl, ⟨rfl, ?_, ?_, by simp only [h4]; exact h.len⟩, h4, by simp [setOpen], ?_⟩
    · intro g hg
      simp only [setOpen]
      split
      · rfl
      · next hne =>
        rcases List.mem_append.1 hg with hg | hg
        · rw [h3]; exact h7 g hg
        · exact absurd (List.mem_singleton.1 hg) hne
    · simp
    · intro g v hg
      simp only [setOpen]
      rw [if_neg, h3, hg]
      rintro rfl
      rw [hg] at ho
      exact ho rfl

theorem getBuffer_read {N S : Nat} {max maxFiles : Int} (hM : 0 < maxFiles) {F : Fm} (h : RInv S F) (f size : Nat) {s : Nat} (hs : s < S) :
    ∃ F', F.getBuffer N max maxFiles f size s = some F' ∧ RInv S F' ∧ ∀ g v, F.opened g = some v → F'.opened g = some v := by
  unfold Fm.getBuffer
  obtain ⟨F1, h1, h2, h3, h4, h5⟩ := load_read (N := N) (max := max) hM h f size
  obtain ⟨v, hv⟩ := Option.isSome_iff_exists.1 h4
  have hs1 : s < F1.sessions.length := by rw [h2.len]; exact hs
  simp only [Option.bind_eq_bind, h1, Option.bind_some, hv, List.getElem?_eq_getElem hs1, h2.mm]
  by_cases hne : F1.sessions[s] ≠ v
  · rw [if_pos hne]
    exact ⟨_, rfl, ⟨rfl, h2.tracked, h2.some_, by simp [h2.len]⟩, h5⟩
  · rw [if_neg hne]
    exact ⟨F1, rfl, h2, h5⟩

theorem run_read {N S : Nat} {max maxFiles : Int} (hM : 0 < maxFiles) {F F' : Fm} {o : FOp} (h : RInv S F) (hr : F.run N S max maxFiles o = some F') :
    RInv S F' ∧ ∀ g v, F.opened g = some v → F'.opened g = some v := by
  cases o with
  | load f size =>
    obtain ⟨F1, h1, h2, -, -, h3⟩ := load_read (N := N) (max := max) hM h f size
    simp only [Fm.run] at hr
    rw [h1] at hr
    cases hr
    exact ⟨h2, h3⟩
  | read f size s =>
    have hs : s < S := by
      apply Classical.byContradiction
      intro hs
      obtain ⟨F1, h1, h2, h3, h4, h5⟩ := load_read (N := N) (max := max) hM h f size
      obtain ⟨v, hv⟩ := Option.isSome_iff_exists.1 h4
      have hn : F1.sessions[s]? = none := List.getElem?_eq_none (by rw [h2.len]; omega)
      simp only [Fm.run, Fm.getBuffer, Option.bind_eq_bind, h1, Option.bind_some, hv, hn, Option.bind_none] at hr
      cases hr
    obtain ⟨F1, h1, h2⟩ := getBuffer_read (N := N) (max := max) hM h f size hs
    simp only [Fm.run] at hr
    rw [h1] at hr
    cases hr
    exact h2
  | newSession =>
    simp only [Fm.run] at hr
    cases e : F.newSession S with
    | none => rw [e] at hr; cases hr
    | some r =>
      obtain ⟨F1, t⟩ := r
      rw [e] at hr
      cases hr
      obtain ⟨h1, rfl⟩ := newSession_spec e
      exact ⟨⟨h.mm, h.tracked, h.some_, by simp [h.len]⟩, fun _ _ hg => hg⟩
  | closeSession s =>
    simp only [Fm.run, Fm.closeSession, Option.bind_eq_bind, h.mm] at hr
    cases hs : F.sessions[s]? with
    | none => rw [hs] at hr; cases hr
    | some old =>
      rw [hs] at hr
      cases hr
      exact ⟨⟨rfl, h.tracked, h.some_, by simp [h.len]⟩, fun _ _ hg => hg⟩

theorem runs_read {N S : Nat} {max maxFiles : Int} (hM : 0 < maxFiles) : ∀ {ops : List FOp} {F F' : Fm}, RInv S F →
    F.runs N S max maxFiles ops = some F' → RInv S F' ∧ ∀ g v, F.opened g = some v → F'.opened g = some v
  | [], _, _, h, hr => by cases hr; exact ⟨h, fun _ _ hg => hg⟩
  | o :: ops, F, F', h, hr => by
    simp only [Fm.runs] at hr
    cases e : F.run N S max maxFiles o with
    | none => rw [e] at hr; cases hr
    | some F1 =>
      rw [e] at hr
      obtain ⟨h1, h2⟩ := run_read hM h e
      obtain ⟨h3, h4⟩ := runs_read hM h1 hr
      exact ⟨h3, fun g v hg => h4 g v (h2 g v hg)⟩

theorem empty_rinv (S : Nat) : RInv S (Fm.empty S none) := ⟨rfl, by simp [Fm.empty], by simp [Fm.empty], by simp [Fm.empty]⟩

end Trident.Files
