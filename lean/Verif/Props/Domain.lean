import Verif.Sparql.DomainProofs
import Verif.Sparql.Hint
/-!
# C77: domains of join variables and skipping scans

The set of values that a query keeps for a join variable never loses a value that was put in, two sets are intersected without losing a common value, the next
value of a set is found, and a scan that skips values by such sets and by the positions of other inputs still returns every row that they allow.
-/
namespace Trident.Sparql.Domain

/-- The domains that a query can have: one without any restriction, restricted to the values that were seen, or synchronised with another one. -/
inductive Reach : Dom → Prop
  | start : Reach potential
  | restrict {d} (l : List Nat) : Reach d → (∀ v ∈ l, v < 2 ^ 64) → Reach (restrictTo d (observed l))
  | sync {d e} : Reach d → Reach e → Reach (sync d e)

theorem foldl_min (l : List Nat) : ∀ d : Dom, d.min < 2 ^ 64 → (∀ v ∈ l, v < 2 ^ 64) → (l.foldl add d).min < 2 ^ 64 := by
  induction l with
  | nil => exact fun d h _ => h
  | cons x l ih =>
    intro d h hl
    apply ih _ _ fun v hv => hl v (by simp [hv])
    have := hl x (by simp)
    simp only [add]; split <;> omega

theorem Reach.inv {d : Dom} (h : Reach d) : WF d ∧ d.min < 2 ^ 64 := by
  induction h with
  | start => exact ⟨wf_potential, by decide⟩
  | @restrict d l _ hl ih =>
    refine ⟨wf_restrict _ ih.1, ?_⟩
    have : (observed l).min < 2 ^ 64 := foldl_min l _ (by decide) hl
    simp only [restrictTo]; split <;> omega
  | @sync d e _ _ ih1 ih2 =>
    refine ⟨wf_restrict _ ih1.1, ?_⟩
    have := ih1.2; have := ih2.2
    simp only [Domain.sync]; split <;> omega

/-- **C77 (values that were seen).** Whatever values are added, each of them qualifies. -/
theorem C77_observed (l : List Nat) (v : Nat) (h : v ∈ l) : couldQualify (observed l) v = true := foldl_add l _ v (.inr h)

/-- **C77 (no restriction).** At the start every 64 bit value qualifies. -/
theorem C77_start (v : Nat) (h : v < 2 ^ 64) : couldQualify potential v = true := by
  rw [couldQualify_iff]
  refine ⟨Nat.zero_le _, by unfold potential top; simp only; omega, ?_⟩
  unfold bitOf potential
  simp only
  rw [Nat.testBit_two_pow_sub_one]
  simp only [decide_eq_true_eq]
  omega

/-- **C77 (intersection).** After a restriction exactly the values qualify that qualify in both domains, and in particular all that qualified and were seen. -/
theorem C77_restrict (d : Dom) (l : List Nat) (v : Nat) :
    (couldQualify (restrictTo d (observed l)) v = true ↔ couldQualify d v = true ∧ couldQualify (observed l) v = true) ∧
      (couldQualify d v = true → v ∈ l → couldQualify (restrictTo d (observed l)) v = true) :=
  ⟨restrict_iff d _ v, fun h1 h2 => (restrict_iff d _ v).2 ⟨h1, C77_observed l v h2⟩⟩

theorem C77_sync (d e : Dom) (v : Nat) : couldQualify (sync d e) v = true ↔ couldQualify d v = true ∧ couldQualify e v = true := sync_iff d e v

/-- **C77 (next value).** No value that qualifies lies between a value and its next candidate.  (`UINT64_MAX` itself stands for the end.) -/
theorem C77_next_sound {d : Dom} (h : Reach d) (v w : Nat) (hv : v < 2 ^ 64) (h1 : v ≤ w) (h2 : w < nextCandidate d v) (h3 : w < top) :
    couldQualify d w = false := next_sound d h.inv.1 v hv h.inv.2 w h1 h2 h3

theorem next_lt {d : Dom} (h : Reach d) (v : Nat) (hv : v < 2 ^ 64) : nextCandidate d v < 2 ^ 64 := by
  have hi := h.inv
  unfold nextCandidate
  simp only
  generalize hu : (if v < d.min then d.min else v) = u
  have hu' : u < 2 ^ 64 := by split at hu <;> omega
  split
  · unfold top; omega
  · rcases nextFrom_spec d hi.1 u hu' (by omega) with ⟨x, _, e⟩ | ⟨_, e⟩
    · rw [e]; unfold bounded
      split
      · unfold top; omega
      · exact Nat.mod_lt _ (by decide)
    · rw [e]; unfold top; omega

/-- **C77 (next value).** The next candidate qualifies, or there is no larger value that does: for values that are not among the largest 8192 ones. -/
theorem C77_next {d : Dom} (h : Reach d) (v : Nat) (hv : v + 8192 ≤ 2 ^ 64) (hmin : d.min + 8192 ≤ 2 ^ 64) :
    (nextCandidate d v = top ∧ ∀ w, v ≤ w → w < top → couldQualify d w = false) ∨
      (v ≤ nextCandidate d v ∧ couldQualify d (nextCandidate d v) = true ∧ ∀ w, v ≤ w → w < nextCandidate d v → couldQualify d w = false) := by
  have hs := fun w h1 h2 h3 => C77_next_sound h v w (by omega) h1 h2 h3
  rcases next_candidate d h.inv.1 v hv hmin with e | ⟨a, b⟩
  · exact .inl ⟨e, fun w h1 h2 => hs w h1 (by omega) h2⟩
  · by_cases e : nextCandidate d v = top
    · exact .inl ⟨e, fun w h1 h2 => hs w h1 (by omega) h2⟩
    · refine .inr ⟨a, b, fun w h1 h2 => hs w h1 h2 ?_⟩
      rcases Nat.lt_or_ge w top with g | g
      · exact g
      · exfalso
        have := h.inv.2
        have hb := next_lt h v (by omega)
        unfold top at g
        omega

/-- Values near the end of the range: the search goes on at 0, and its result is smaller than the value asked for.  (The scans compare and do not go back.) -/
theorem C77_next_violated : ∃ d, Reach d ∧ nextCandidate d (2 ^ 64 - 100) = 5 :=
  ⟨_, .restrict [2 ^ 64 - 3, 5] (.restrict [2 ^ 64 - 2, 5] .start (by decide)) (by decide), by decide +kernel⟩

/-- A domain with three values. -/
def exDom : Dom := restrictTo (restrictTo potential (observed [3, 70, 9000, 12])) (observed [70, 12, 9000, 9001, 11])

example : Reach exDom := .restrict _ (.restrict _ .start (by decide)) (by decide)
example : [12, 70, 9000].all (couldQualify exDom) ∧ [3, 11, 13, 71, 9001].all (fun v => !couldQualify exDom v) := by decide +kernel
example : [0, 12, 13, 70, 71, 9000, 9001].map (nextCandidate exDom) = [12, 12, 70, 70, 808, 9000, top] := by decide +kernel
/-- 808 is 9000 - 8192, which has the same bit: a value may qualify that was not seen. -/
example : couldQualify exDom 808 = true := by decide +kernel

end Trident.Sparql.Domain

namespace Trident.Sparql.Hint
open Domain

/-- What is known about a column allows the value: it is the constant, not smaller than the values of the other inputs, and in the domain. -/
def Slot.Allows (s : Slot) (x : Nat) : Prop :=
  (∀ b, s.bound = some b → x = b) ∧ (∀ m ∈ s.merges, m ≤ x ∨ m = top) ∧ ∀ d, s.dom = some d → couldQualify d x = true

/-- The domains are ones that a query can have. -/
def Slot.Ok (s : Slot) : Prop := ∀ d, s.dom = some d → Reach d

theorem raise_le {v m x : Nat} (h : v ≤ x) (hm : m ≤ x ∨ m = top) : raise v m ≤ x := by
  unfold raise; split <;> omega

theorem known_le {s : Slot} {v x : Nat} (h : v ≤ x) (hs : s.Allows x) : known s v ≤ x := by
  obtain ⟨h1, h2, _⟩ := hs
  unfold known
  have h0 : (s.bound.map (raise v)).getD v ≤ x := by
    match hb : s.bound with
    | none => simpa using h
    | some b => simpa using raise_le h (.inl (by rw [h1 b hb]; exact Nat.le_refl _))
  generalize (s.bound.map (raise v)).getD v = u at h0 ⊢
  revert u
  generalize s.merges = l at h2
  induction l with
  | nil => exact fun u h => h
  | cons m l ih => exact fun u h => ih (fun m' hm' => h2 m' (by simp [hm'])) _ (raise_le h (h2 m (by simp)))

theorem column_le {s : Slot} (hok : s.Ok) {v x : Nat} (h : v ≤ x) (hx : x < top) (hs : s.Allows x) : column s v ≤ x := by
  have hk := known_le h hs
  unfold column
  match hd : s.dom with
  | none => exact hk
  | some d =>
    simp only
    split
    · rcases Nat.lt_or_ge x (nextCandidate d (known s v)) with g | g
      · have := C77_next_sound (hok d hd) (known s v) x (by unfold top at hx; omega) hk g hx
        rw [hs.2.2 d hd] at this; cases this
      · exact g
    · exact hk

theorem column3_le {s : Slot} (hok : s.Ok) {v x : Nat} (h : v ≤ x) (hx : x < top) (hs : s.Allows x) : column3 s v ≤ x := by
  have hk := known_le h hs
  unfold column3
  match hd : s.dom with
  | none => exact hk
  | some d =>
    simp only
    apply raise_le hk
    left
    rcases Nat.lt_or_ge x (nextCandidate d (known s v)) with g | g
    · have := C77_next_sound (hok d hd) (known s v) x (by unfold top at hx; omega) hk g hx
      rw [hs.2.2 d hd] at this; cases this
    · exact g

/-- **C77 (hint).** From a position up to a row that is allowed, the hint leads to a position up to this row. -/
theorem C77_hint3 (s1 s2 s3 : Slot) (o1 : s1.Ok) (o2 : s2.Ok) (o3 : s3.Ok) (v t : Nat × Nat × Nat) (h1 : v.1 ≤ t.1) (h2 : v.2.1 ≤ t.2.1) (h3 : v.2.2 ≤ t.2.2)
    (b1 : t.1 < top) (b2 : t.2.1 < top) (b3 : t.2.2 < top) (a1 : s1.Allows t.1) (a2 : s2.Allows t.2.1) (a3 : s3.Allows t.2.2) :
    (next3 s1 s2 s3 v).1 ≤ t.1 ∧ (next3 s1 s2 s3 v).2.1 ≤ t.2.1 ∧ (next3 s1 s2 s3 v).2.2 ≤ t.2.2 := by
  unfold next3
  refine ⟨column_le o1 h1 b1 a1, column_le o2 ?_ b2 a2, column3_le o3 ?_ b3 a3⟩
  · split
    · exact Nat.zero_le _
    · exact h2
  · split
    · split <;> exact Nat.zero_le _
    · split
      · exact Nat.zero_le _
      · exact h3

theorem C77_hint2 (s1 s2 : Slot) (o1 : s1.Ok) (o2 : s2.Ok) (v t : Nat × Nat) (h1 : v.1 ≤ t.1) (h2 : v.2 ≤ t.2)
    (b1 : t.1 < top) (b2 : t.2 < top) (a1 : s1.Allows t.1) (a2 : s2.Allows t.2) :
    (next2 s1 s2 v).1 ≤ t.1 ∧ (next2 s1 s2 v).2 ≤ t.2 := by
  unfold next2
  refine ⟨column_le o1 h1 b1 a1, column_le o2 ?_ b2 a2⟩
  split
  · exact Nat.zero_le _
  · exact h2

/-- **C77 (scan of three columns).** Whatever is known in each call, the scan returns rows of the store in their order, and every row that is allowed in all calls. -/
theorem C77_scan3 (hints : List (Option (Slot × Slot × Slot))) (hok : ∀ s, some s ∈ hints → s.1.Ok ∧ s.2.1.Ok ∧ s.2.2.Ok) (cur : Triple) (rest : List Triple) :
    (rows3 hints cur rest).Sublist (cur :: rest) ∧
      ∀ t ∈ cur :: rest, t.1 < top → t.2.1 < top → t.2.2 < top →
        (∀ s, some s ∈ hints → s.1.Allows t.1 ∧ s.2.1.Allows t.2.1 ∧ s.2.2.Allows t.2.2) → t ∈ rows3 hints cur rest := by
  induction hints generalizing cur rest with
  | nil => exact ⟨List.Sublist.refl _, fun t h _ _ _ _ => h⟩
  | cons h hs ih =>
    rw [rows3]
    generalize hr : skipped3 h cur rest = rest'
    have hsub : rest'.Sublist rest := by
      subst hr
      match h with
      | none => exact List.Sublist.refl _
      | some s =>
        simp only [skipped3, skip3, movedTo]
        split
        · exact List.filter_sublist
        · exact List.Sublist.refl _
    have hkeep : ∀ t ∈ rest, t.1 < top → t.2.1 < top → t.2.2 < top →
        (∀ s, some s ∈ h :: hs → s.1.Allows t.1 ∧ s.2.1.Allows t.2.1 ∧ s.2.2.Allows t.2.2) → t ∈ rest' := by
      intro t ht b1 b2 b3 ha
      subst hr
      match h with
      | none => exact ht
      | some s =>
        obtain ⟨o1, o2, o3⟩ := hok s (by simp)
        obtain ⟨a1, a2, a3⟩ := ha s (by simp)
        have := C77_hint3 s.1 s.2.1 s.2.2 o1 o2 o3 (0, 0, 0) t (Nat.zero_le _) (Nat.zero_le _) (Nat.zero_le _) b1 b2 b3 a1 a2 a3
        simp only [skipped3, skip3, movedTo]
        split
        · rw [List.mem_filter]
          refine ⟨ht, ?_⟩
          simp only [decide_eq_true_eq]
          omega
        · exact ht
    match hm : rest' with
    | [] =>
      refine ⟨by simp, ?_⟩
      intro t ht b1 b2 b3 ha
      rcases List.mem_cons.1 ht with rfl | ht
      · simp
      · exact absurd (hkeep t ht b1 b2 b3 ha) (by simp)
    | x :: r =>
      have ih := ih (fun s hs => hok s (by simp [hs])) x r
      refine ⟨List.Sublist.cons_cons _ (ih.1.trans hsub), ?_⟩
      intro t ht b1 b2 b3 ha
      rcases List.mem_cons.1 ht with rfl | ht
      · simp
      · exact List.mem_cons_of_mem _ (ih.2 t (hkeep t ht b1 b2 b3 ha) b1 b2 b3 fun s hs => ha s (by simp [hs]))

/-- **C77 (scan of two columns).** -/
theorem C77_scan2 (hints : List (Option (Slot × Slot))) (hok : ∀ s, some s ∈ hints → s.1.Ok ∧ s.2.Ok) (cur : Pair) (rest : List Pair) :
    (rows2 hints cur rest).Sublist (cur :: rest) ∧
      ∀ t ∈ cur :: rest, t.1 < top → t.2.1 < top → (∀ s, some s ∈ hints → s.1.Allows t.1 ∧ s.2.Allows t.2.1) → t ∈ rows2 hints cur rest := by
  induction hints generalizing cur rest with
  | nil => exact ⟨List.Sublist.refl _, fun t h _ _ _ => h⟩
  | cons h hs ih =>
    rw [rows2]
    generalize hr : skipped2 h cur rest = rest'
    have hsub : rest'.Sublist rest := by
      subst hr
      match h with
      | none => exact List.Sublist.refl _
      | some s =>
        simp only [skipped2, skip2]
        split
        · exact List.filter_sublist
        · split
          · exact List.filter_sublist
          · exact List.Sublist.refl _
    have hkeep : ∀ t ∈ rest, t.1 < top → t.2.1 < top → (∀ s, some s ∈ h :: hs → s.1.Allows t.1 ∧ s.2.Allows t.2.1) → t ∈ rest' := by
      intro t ht b1 b2 ha
      subst hr
      match h with
      | none => exact ht
      | some s =>
        obtain ⟨o1, o2⟩ := hok s (by simp)
        obtain ⟨a1, a2⟩ := ha s (by simp)
        have := C77_hint2 s.1 s.2 o1 o2 (0, 0) (t.1, t.2.1) (Nat.zero_le _) (Nat.zero_le _) b1 b2 a1 a2
        simp only [skipped2, skip2]
        simp only at this
        split
        · rw [List.mem_filter]
          exact ⟨ht, by simpa using this.1⟩
        · split
          · rw [List.mem_filter]
            exact ⟨ht, by simp only [decide_eq_true_eq]; exact .inr this.2⟩
          · exact ht
    match hm : rest' with
    | [] =>
      refine ⟨by simp, ?_⟩
      intro t ht b1 b2 ha
      rcases List.mem_cons.1 ht with rfl | ht
      · simp
      · exact absurd (hkeep t ht b1 b2 ha) (by simp)
    | x :: r =>
      have ih := ih (fun s hs => hok s (by simp [hs])) x r
      refine ⟨List.Sublist.cons_cons _ (ih.1.trans hsub), ?_⟩
      intro t ht b1 b2 ha
      rcases List.mem_cons.1 ht with rfl | ht
      · simp
      · exact List.mem_cons_of_mem _ (ih.2 t (hkeep t ht b1 b2 ha) b1 b2 fun s hs => ha s (by simp [hs]))

/-- The rows of the key 1; the second column has the domain above, and the other input of a merge join is at 60. -/
def exSlots : Slot × Slot × Slot := (⟨some 1, [], none⟩, ⟨none, [60], some exDom⟩, ⟨none, [], none⟩)

example : rows3 [some exSlots, none, none] (1, 2, 5) [(1, 12, 5), (1, 60, 4), (1, 70, 3), (1, 70, 8), (1, 71, 2), (1, 9000, 6)] =
    [(1, 2, 5), (1, 70, 3), (1, 70, 8), (1, 71, 2), (1, 9000, 6)] := by decide +kernel

example : ∀ s, some s ∈ [some exSlots, none, none] → s.1.Ok ∧ s.2.1.Ok ∧ s.2.2.Ok := by
  intro s hs
  have : s = exSlots := by simpa using hs
  subst this
  exact ⟨fun d h => (nomatch h), fun d h => by (cases h; exact .restrict _ (.restrict _ .start (by decide)) (by decide)), fun d h => (nomatch h)⟩

example : exSlots.1.Allows 1 ∧ exSlots.2.1.Allows 70 ∧ exSlots.2.2.Allows 3 :=
  ⟨⟨fun b h => by cases h; rfl, by simp [exSlots], fun d h => by cases h⟩,
    ⟨fun b h => (nomatch h), by simp [exSlots], fun d h => by (cases h; decide +kernel)⟩, ⟨fun b h => (nomatch h), by simp [exSlots], fun d h => (nomatch h)⟩⟩

example : rows2 [some (⟨none, [3], none⟩, ⟨none, [], some exDom⟩), none] (1, 2, 1) [(1, 70, 2), (2, 5, 1), (3, 4, 1), (3, 12, 1)] = [(1, 2, 1), (3, 4, 1), (3, 12, 1)] := by
  decide +kernel

end Trident.Sparql.Hint
