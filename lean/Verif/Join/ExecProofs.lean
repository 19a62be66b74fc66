import Verif.Join.HashProofs
import Verif.Join.Spec
/-! # The hash join: proofs about the execution -/
namespace Trident.Join

/-! ## Lists -/

theorem flatMap_append_perm {α β : Type} (F G : α → List β) : ∀ B : List α, (B.flatMap fun b => F b ++ G b).Perm (B.flatMap F ++ B.flatMap G)
  | [] => .refl _
  | b :: B => by
    simp only [List.flatMap_cons]
    have ih := flatMap_append_perm F G B
    refine (List.Perm.append_left _ ih).trans ?_
    simp only [List.append_assoc]
    refine List.Perm.append_left _ ?_
    rw [← List.append_assoc, ← List.append_assoc]
    exact List.Perm.append_right _ List.perm_append_comm

theorem filter_map_flatMap {α β : Type} (p : α → Bool) (f : α → β) : ∀ B : List α, (B.filter p).map f = B.flatMap fun b => if p b then [f b] else []
  | [] => rfl
  | b :: B => by
    rw [List.flatMap_cons, ← filter_map_flatMap p f B, List.filter_cons]
    by_cases h : p b
    · simp [h]
    · simp [h]

theorem swap_perm {α β γ : Type} (p : α → β → Bool) (f : α → β → γ) : ∀ (A : List α) (B : List β),
    (A.flatMap fun a => (B.filter (p a)).map (f a)).Perm (B.flatMap fun b => (A.filter (p · b)).map (f · b))
  | [], B => by simp
  | a :: A, B => by
    rw [List.flatMap_cons]
    have ih := swap_perm p f A B
    have h1 : (B.flatMap fun b => ((a :: A).filter (p · b)).map (f · b)) =
        B.flatMap fun b => (if p a b then [f a b] else []) ++ (A.filter (p · b)).map (f · b) := by
      congr 1
      funext b
      rw [List.filter_cons]
      by_cases h : p a b <;> simp [h]
    rw [h1]
    refine (List.Perm.append_left _ ih).trans ?_
    rw [filter_map_flatMap]
    exact (flatMap_append_perm _ _ B).symm

theorem perm_flatMap_congr {α β : Type} {F G : α → List β} : ∀ {A : List α}, (∀ a ∈ A, (F a).Perm (G a)) → (A.flatMap F).Perm (A.flatMap G)
  | [], _ => .refl _
  | a :: A, h => by
    rw [List.flatMap_cons, List.flatMap_cons]
    exact (h a (by simp)).append (perm_flatMap_congr fun x hx => h x (by simp [hx]))

/-! ## Bindings -/

theorem value_zip {v : Nat} : ∀ {fs r : List Nat}, r.length = fs.length → v ∈ fs → value (fs.zip r) v = r.getD (fs.idxOf v) 0
  | [], _, _, h => by simp at h
  | f :: fs, [], h, _ => by simp at h
  | f :: fs, a :: r, h, hv => by
    unfold value
    rw [List.zip_cons_cons, List.lookup_cons]
    by_cases hf : v = f
    · subst hf; simp
    · have : (v == f) = false := by simpa using hf
      rw [List.idxOf_cons]
      have h2 : (f == v) = false := by simpa using Ne.symm hf
      simp only [this, h2, cond_false]
      have := value_zip (v := v) (fs := fs) (r := r) (by simpa using h) (by simpa [hf] using hv)
      unfold value at this
      rw [this]
      simp

theorem keys_zip {fs r : List Nat} (h : r.length = fs.length) : (fs.zip r).map Prod.fst = fs := by
  rw [List.map_fst_zip]
  omega

theorem lookup_append (b b' : Binding) (v : Nat) : (b ++ b').lookup v = (b.lookup v).or (b'.lookup v) := by
  rw [List.lookup_append]

theorem lookup_none_iff {b : Binding} {v : Nat} : b.lookup v = none ↔ v ∉ b.map Prod.fst := by
  rw [List.lookup_eq_none_iff]
  constructor
  · intro h hm
    obtain ⟨p, hp, he⟩ := List.mem_map.1 hm
    have := h p hp
    simp [he] at this
  · intro h p hp
    have : v ≠ p.1 := fun he => h (by rw [he]; exact List.mem_map_of_mem hp)
    simpa using this

theorem lookup_some_mem {v a : Nat} : ∀ {b : Binding}, b.lookup v = some a → (v, a) ∈ b
  | [], h => by simp at h
  | (w, c) :: b, h => by
    rw [List.lookup_cons] at h
    by_cases hw : v = w
    · subst hw
      simp at h
      simp [h]
    · have : (v == w) = false := by simpa using hw
      simp only [this] at h
      exact List.mem_cons_of_mem _ (lookup_some_mem h)

theorem value_mem {b : Binding} {v : Nat} (h : v ∈ b.map Prod.fst) : (v, value b v) ∈ b := by
  unfold value
  cases hl : b.lookup v with
  | none => exact absurd h (lookup_none_iff.1 hl)
  | some a => exact lookup_some_mem hl

theorem value_append_left {b b' : Binding} {v : Nat} (h : v ∈ b.map Prod.fst) : value (b ++ b') v = value b v := by
  unfold value
  rw [lookup_append]
  cases hl : b.lookup v with
  | none => exact absurd h (lookup_none_iff.1 hl)
  | some a => rfl

theorem value_append_right {b b' : Binding} {v : Nat} (h : v ∉ b.map Prod.fst) : value (b ++ b') v = value b' v := by
  unfold value
  rw [lookup_append, lookup_none_iff.2 h]
  rfl

theorem consistent_iff {b : Binding} : consistent b = true ↔ ∀ x ∈ b, ∀ y ∈ b, x.1 = y.1 → x.2 = y.2 := by
  unfold consistent
  simp only [List.all_eq_true, decide_eq_true_eq]

theorem consistent_value {b : Binding} (h : consistent b = true) {x : Nat × Nat} (hx : x ∈ b) : x.2 = value b x.1 := by
  have := value_mem (List.mem_map_of_mem (f := Prod.fst) hx)
  exact consistent_iff.1 h x hx _ this rfl

theorem consistent_zip {fs r : List Nat} (hn : fs.Nodup) (h : r.length = fs.length) : consistent (fs.zip r) = true := by
  rw [consistent_iff]
  intro x hx y hy he
  obtain ⟨i, hi, rfl⟩ := List.getElem_of_mem hx
  obtain ⟨j, hj, rfl⟩ := List.getElem_of_mem hy
  simp only [List.getElem_zip] at he ⊢
  have hij : i = j := by
    simp only [List.length_zip] at hi hj
    exact (List.getElem_inj hn).1 he
  subst hij
  rfl

/-- Two bindings go together if they agree on the common variables. -/
theorem consistent_append {b b' : Binding} : consistent (b ++ b') = true ↔ consistent b = true ∧ consistent b' = true ∧
    ∀ v ∈ b'.map Prod.fst, v ∈ b.map Prod.fst → value b v = value b' v := by
  constructor
  · intro h
    rw [consistent_iff] at h
    refine ⟨consistent_iff.2 fun x hx y hy => h x (by simp [hx]) y (by simp [hy]), consistent_iff.2 fun x hx y hy => h x (by simp [hx]) y (by simp [hy]), ?_⟩
    intro v h1 h2
    exact h _ (List.mem_append_left _ (value_mem h2)) _ (List.mem_append_right _ (value_mem h1)) rfl
  · rintro ⟨h1, h2, h3⟩
    rw [consistent_iff]
    intro x hx y hy he
    rcases List.mem_append.1 hx with hx | hx <;> rcases List.mem_append.1 hy with hy | hy
    · exact consistent_iff.1 h1 x hx y hy he
    · rw [consistent_value h1 hx, consistent_value h2 hy, he]
      exact h3 _ (List.mem_map_of_mem hy) (by rw [← he]; exact List.mem_map_of_mem hx)
    · rw [consistent_value h2 hx, consistent_value h1 hy, he]
      exact (h3 _ (by rw [← he]; exact List.mem_map_of_mem hx) (List.mem_map_of_mem hy)).symm
    · exact consistent_iff.1 h2 x hx y hy he

theorem combos_append : ∀ (cs ds : List Child), combos (cs ++ ds) = (combos cs).flatMap fun b => (combos ds).map fun b' => b ++ b'
  | [], ds => by simp [combos]
  | c :: cs, ds => by
    simp only [List.cons_append, combos, combos_append cs ds, List.map_flatMap, List.flatMap_assoc, List.flatMap_map, List.map_map]
    congr 1
    funext r
    congr 1
    funext b
    congr 1
    funext b'
    simp

theorem combos_single (c : Child) : combos [c] = c.rows.map fun r => c.fields.zip r := by
  simp [combos, List.map_eq_flatMap]

theorem combos_keys {b : Binding} : ∀ {cs : List Child}, (∀ c ∈ cs, c.Ok) → b ∈ combos cs → b.map Prod.fst = cs.flatMap Child.fields
  | [], _, h => by simp [combos] at h; simp [h]
  | c :: cs, hok, h => by
    simp only [combos, List.mem_flatMap, List.mem_map] at h
    obtain ⟨r, hr, b', hb', rfl⟩ := h
    rw [List.map_append, keys_zip ((hok c (by simp)).rows r hr), combos_keys (fun d hd => hok d (by simp [hd])) hb', List.flatMap_cons]

theorem combos_vals {b : Binding} : ∀ {cs : List Child}, (∀ c ∈ cs, c.Ok) → b ∈ combos cs → ∀ e ∈ b, e.2 ≠ 2 ^ 64 - 1
  | [], _, h => by simp [combos] at h; simp [h]
  | c :: cs, hok, h => by
    simp only [combos, List.mem_flatMap, List.mem_map] at h
    obtain ⟨r, hr, b', hb', rfl⟩ := h
    intro e he
    rcases List.mem_append.1 he with he | he
    · exact (hok c (by simp)).vals r hr e.2 (List.of_mem_zip he).2
    · exact combos_vals (fun d hd => hok d (by simp [hd])) hb' e he

/-- Solutions of inputs and one more. -/
theorem solutions_snoc {cs : List Child} {c : Child} (hc : c.Ok) : solutions (cs ++ [c]) =
    (solutions cs).flatMap fun b => (c.rows.filter fun r => decide (∀ v ∈ c.fields, v ∈ b.map Prod.fst → value b v = value (c.fields.zip r) v)).map fun r => b ++ c.fields.zip r := by
  unfold solutions
  rw [combos_append, combos_single]
  induction combos cs with
  | nil => rfl
  | cons b bs ih =>
    rw [List.flatMap_cons, List.filter_append, ih, List.filter_cons]
    have h1 : ((c.rows.map fun r => c.fields.zip r).map fun b' => b ++ b').filter consistent = if consistent b = true then
        (c.rows.filter fun r => decide (∀ v ∈ c.fields, v ∈ b.map Prod.fst → value b v = value (c.fields.zip r) v)).map fun r => b ++ c.fields.zip r else [] := by
      rw [List.map_map, List.filter_map]
      by_cases hb : consistent b = true
      · rw [if_pos hb]
        congr 1
        apply List.filter_congr
        intro r hr
        have hlen := hc.rows r hr
        have := @consistent_append b (c.fields.zip r)
        rw [keys_zip hlen] at this
        simp only [Function.comp_apply]
        by_cases hh : ∀ v ∈ c.fields, v ∈ b.map Prod.fst → value b v = value (c.fields.zip r) v
        · rw [decide_eq_true hh]
          exact this.2 ⟨hb, consistent_zip hc.nodup hlen, hh⟩
        · rw [decide_eq_false hh]
          cases hcc : consistent (b ++ c.fields.zip r) with
          | false => rfl
          | true => exact absurd (this.1 hcc).2.2 hh
      · rw [if_neg hb]
        have : (c.rows.filter (consistent ∘ ((fun b' => b ++ b') ∘ fun r => c.fields.zip r))) = [] := by
          rw [List.filter_eq_nil_iff]
          intro r hr hcc
          exact hb (consistent_append.1 hcc).1
        rw [this]
        rfl
    rw [h1]
    by_cases hb : consistent b = true
    · rw [if_pos hb, if_pos hb, List.flatMap_cons]
    · rw [if_neg hb, if_neg hb]
      rfl

/-! ## The plan -/

theorem idxOf_append_right {l m : List Nat} {v : Nat} (h : v ∉ l) : (l ++ m).idxOf v = l.length + m.idxOf v := by
  rw [List.idxOf_append, if_neg h, Nat.add_comm]

theorem idxOf_append_left {l m : List Nat} {v : Nat} (h : v ∈ l) : (l ++ m).idxOf v = l.idxOf v := by
  rw [List.idxOf_append, if_pos h]

theorem scanFields_spec (keep : Nat → Bool) : ∀ {fs pre cur add : List Nat}, (pre ++ fs).Nodup → (∀ v ∈ add, v ∈ pre) →
    scanFields keep fs pre.length (cur ++ add) =
      ((fs.filter fun v => decide (v ∈ cur)).map (fun v => (cur.idxOf v, (pre ++ fs).idxOf v)),
       (fs.filter fun v => decide (v ∉ cur) && keep v).map (fun v => (pre ++ fs).idxOf v),
       cur ++ add ++ fs.filter fun v => decide (v ∉ cur))
  | [], pre, cur, add, _, _ => by simp [scanFields]
  | v :: fs, pre, cur, add, hn, hadd => by
    have hv : v ∉ pre := by
      rw [List.nodup_append] at hn
      intro hm
      exact hn.2.2 v hm v (by simp) rfl
    have hva : v ∉ add := fun h => hv (hadd v h)
    have hidx : (pre ++ v :: fs).idxOf v = pre.length := by rw [idxOf_append_right hv]; simp
    have hass : pre ++ v :: fs = (pre ++ [v]) ++ fs := by simp
    unfold scanFields
    by_cases hc : v ∈ cur
    · rw [if_pos (List.mem_append_left _ hc)]
      have ih := scanFields_spec keep (fs := fs) (pre := pre ++ [v]) (cur := cur) (add := add) (by rw [← hass]; exact hn) (fun w hw => by simp [hadd w hw])
      rw [List.length_append, List.length_singleton, ← hass] at ih
      rw [ih, idxOf_append_left hc]
      simp [hc, hidx]
    · rw [if_neg (by simp [hc, hva])]
      have ih := scanFields_spec keep (fs := fs) (pre := pre ++ [v]) (cur := cur) (add := add ++ [v]) (by rw [← hass]; exact hn) (fun w hw => by
        rcases List.mem_append.1 hw with hw | hw
        · simp [hadd w hw]
        · simp [List.mem_singleton.1 hw])
      rw [List.length_append, List.length_singleton, ← hass, ← List.append_assoc] at ih
      rw [ih]
      by_cases hk : keep v = true <;> simp [hc, hk, hidx]

/-- The joins, the copied columns and the columns afterwards. -/
theorem scan_spec (keep : Nat → Bool) {fs : List Nat} (hn : fs.Nodup) (cur : List Nat) : scanFields keep fs 0 cur =
    ((fs.filter fun v => decide (v ∈ cur)).map (fun v => (cur.idxOf v, fs.idxOf v)), (fs.filter fun v => decide (v ∉ cur) && keep v).map (fun v => fs.idxOf v),
      cur ++ fs.filter fun v => decide (v ∉ cur)) := by
  have := scanFields_spec keep (fs := fs) (pre := []) (cur := cur) (add := []) (by simpa using hn) (by simp)
  simpa using this

end Trident.Join
