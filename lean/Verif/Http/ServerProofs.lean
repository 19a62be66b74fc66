import Verif.Http.Server
import Verif.Http.FormProofs
/-!
# Requests: proofs
-/
namespace Trident.Http

open Spec (Decodes Percent Occurs)

theorem occurs_zero {p t : Text} : Occurs p t 0 ↔ p <+: t := by
  constructor
  · rintro ⟨u, v, h, hu⟩
    rw [List.length_eq_zero_iff.1 hu] at h
    exact ⟨v, h.symm⟩
  · rintro ⟨v, h⟩
    exact ⟨[], v, h.symm, rfl⟩

theorem occurs_succ {p t : Text} {c i : Nat} : Occurs p (c :: t) (i + 1) ↔ Occurs p t i := by
  constructor
  · rintro ⟨u, v, h, hu⟩
    rcases u with _ | ⟨d, u⟩
    · cases hu
    · injection h with h1 h2
      exact ⟨u, v, h2, by simpa using hu⟩
  · rintro ⟨u, v, h, hu⟩
    exact ⟨c :: u, v, by rw [h]; rfl, by simp [hu]⟩

theorem find_eq {p t : Text} {i : Nat} (h : Occurs p t i) (hmin : ∀ j, Occurs p t j → i ≤ j) : find p t = some i := by
  induction t generalizing i with
  | nil =>
    obtain ⟨u, v, h, hu⟩ := h
    have : u = [] ∧ p = [] := by
      have := congrArg List.length h
      simp at this
      exact ⟨List.length_eq_zero_iff.1 (by omega), List.length_eq_zero_iff.1 (by omega)⟩
    rw [this.1] at hu
    simp [find, this.2, ← hu]
  | cons c t ih =>
    rw [find]
    by_cases hp : p.isPrefixOf (c :: t) = true
    · rw [if_pos hp]
      have := hmin 0 (occurs_zero.2 (List.isPrefixOf_iff_prefix.1 hp))
      congr 1; omega
    · rw [if_neg hp]
      rcases i with _ | i
      · exact absurd (List.isPrefixOf_iff_prefix.2 (occurs_zero.1 h)) hp
      · rw [ih (occurs_succ.1 h) fun j hj => by have := hmin (j + 1) (occurs_succ.2 hj); omega]
        rfl

theorem find_some {p t : Text} {i : Nat} (h : find p t = some i) : Occurs p t i ∧ ∀ j, Occurs p t j → i ≤ j := by
  induction t generalizing i with
  | nil =>
    rw [find] at h
    split at h
    · injection h with h
      rename_i hp
      exact ⟨⟨[], [], by simp [hp], by simpa using h⟩, by omega⟩
    · cases h
  | cons c t ih =>
    rw [find] at h
    split at h
    · injection h with h
      rename_i hp
      exact ⟨h ▸ occurs_zero.2 (List.isPrefixOf_iff_prefix.1 hp), by omega⟩
    · rename_i hp
      rcases hf : find p t with _ | k
      · rw [hf] at h; cases h
      · rw [hf] at h
        have h : k + 1 = i := by simpa using h
        obtain ⟨h1, h2⟩ := ih hf
        refine ⟨h ▸ occurs_succ.2 h1, fun j hj => ?_⟩
        rcases j with _ | j
        · exact absurd (List.isPrefixOf_iff_prefix.2 (occurs_zero.1 hj)) hp
        · have := h2 j (occurs_succ.1 hj); omega

theorem find_none {p t : Text} (h : ∀ j, ¬ Occurs p t j) : find p t = none := by
  rcases hf : find p t with _ | k
  · rfl
  · exact absurd (find_some hf).1 (h k)

theorem occurs_byte {c : Nat} {t : Text} {i : Nat} (h : Occurs [c] t i) : t[i]? = some c := by
  obtain ⟨u, v, h, hu⟩ := h
  subst hu
  rw [h, List.append_assoc]
  simp

theorem find_byte {c : Nat} {u w : Text} (h : c ∉ u) : find [c] (u ++ c :: w) = some u.length := by
  refine find_eq ⟨u, w, by simp, rfl⟩ fun j hj => ?_
  have := occurs_byte hj
  rcases Nat.lt_or_ge j u.length with g | g
  · rw [List.getElem?_append_left g] at this
    exact absurd (List.mem_of_getElem? this) h
  · exact g

theorem find_byte_none {c : Nat} {u : Text} (h : c ∉ u) : find [c] u = none :=
  find_none fun _ hj => h (List.mem_of_getElem? (occurs_byte hj))

/-- The value of a parameter that is found first where it stands. -/
theorem valueParam_first {a param v rest : Text} (hfirst : ∀ i, Occurs param (a ++ (param ++ 61 :: (v ++ rest))) i → a.length ≤ i) (h61 : 61 ∉ param) (h38 : 38 ∉ param) (hv : 38 ∉ v)
    (hrest : rest = [] ∨ ∃ r, rest = 38 :: r) : valueParam (a ++ (param ++ 61 :: (v ++ rest))) param = v := by
  have hf : find param (a ++ (param ++ 61 :: (v ++ rest))) = some a.length := find_eq ⟨a, 61 :: (v ++ rest), by simp, rfl⟩ hfirst
  have hs : findFrom [61] (a ++ (param ++ 61 :: (v ++ rest))) a.length = some (param.length + a.length) := by
    rw [findFrom, List.drop_left, find_byte h61]
    rfl
  have hd : (a ++ (param ++ 61 :: (v ++ rest))).drop (param.length + a.length + 1) = v ++ rest := by
    have : a ++ (param ++ 61 :: (v ++ rest)) = (a ++ param ++ [61]) ++ (v ++ rest) := by simp
    rw [this]
    exact List.drop_left' (by simp; omega)
  rcases hrest with hr | ⟨r, hr⟩
  · have he : findFrom [38] (a ++ (param ++ 61 :: (v ++ rest))) a.length = none := by
      rw [findFrom, List.drop_left, find_byte_none]
      · rfl
      · subst hr; simp [h38, hv]
    simp only [valueParam, hf, hs, he, hd]
    subst hr; simp
  · have he : findFrom [38] (a ++ (param ++ 61 :: (v ++ rest))) a.length = some ((param ++ 61 :: v).length + a.length) := by
      rw [findFrom, List.drop_left]
      have : param ++ 61 :: (v ++ rest) = (param ++ 61 :: v) ++ 38 :: r := by simp [hr]
      rw [this, find_byte (by simp [h38, hv])]
      rfl
    simp only [valueParam, hf, hs, he, hd]
    rw [if_pos (by simp)]
    exact List.take_left' (by simp; omega)

theorem plusToSpace_id {s : Text} (h : 43 ∉ s) : plusToSpace s = s := by
  unfold plusToSpace
  induction s with
  | nil => rfl
  | cons c s ih => rw [List.map_cons, ih fun g => h (List.mem_cons_of_mem _ g), if_neg fun (e : c = 43) => h (e ▸ List.mem_cons_self)]

theorem dropReturns_id {s : Text} (h : ∀ i, ¬ Occurs crlf s i) : dropReturns s = s := by
  induction s with
  | nil => rfl
  | cons c s ih =>
    have ih := ih fun i hi => h (i + 1) (occurs_succ.2 hi)
    rcases s with _ | ⟨d, s⟩
    · rfl
    · rw [dropReturns, if_neg, ih]
      rintro ⟨rfl, rfl⟩
      exact h 0 (occurs_zero.2 ⟨s, rfl⟩)

theorem mem_dropReturns {s : Text} {c : Nat} (h : c ∈ dropReturns s) : c ∈ s := by
  induction s using dropReturns.induct with
  | case1 => simp [dropReturns] at h
  | case2 => simpa [dropReturns] using h
  | case3 c d t hc ih =>
    obtain ⟨rfl, rfl⟩ := hc
    rw [dropReturns, if_pos ⟨rfl, rfl⟩] at h
    rcases List.mem_cons.1 h with h | h
    · simp [h]
    · exact List.mem_cons_of_mem _ (List.mem_cons_of_mem _ (ih h))
  | case4 e d t hc ih =>
    rw [dropReturns, if_neg hc] at h
    rcases List.mem_cons.1 h with h | h
    · simp [h]
    · exact List.mem_cons_of_mem _ (ih h)

theorem no_plus (s : Text) : 43 ∉ plusToSpace s := by
  unfold plusToSpace
  intro h
  obtain ⟨c, _, hc⟩ := List.mem_map.1 h
  split at hc <;> omega

/-! ## Reading -/

theorem readLoop_append {s : Text} {n : Int} {req req' s' : Text} (h : ReadLoop s n req req' s') : req' ++ s' = req ++ s := by
  induction h with
  | done => rfl
  | read _ _ _ _ _ ih => rw [ih, List.append_assoc, List.take_append_drop]

theorem readLoop_stop {s : Text} {n : Int} {req req' s' : Text} (h : ReadLoop s n req req' s') (hn : n ≤ 0) : req' = req ∧ s' = s := by
  cases h with
  | done => exact ⟨rfl, rfl⟩
  | read h => omega

/-- At least as much is read as there was to read. -/
theorem readLoop_least {s : Text} {n : Int} {req req' s' : Text} (h : ReadLoop s n req req' s') : (s'.length : Int) ≤ s.length - n ∨ s' = s ∧ n ≤ 0 := by
  induction h with
  | done h => exact Or.inr ⟨rfl, h⟩
  | @read s n req req' s' k h1 h2 h3 h4 h5 ih =>
    left
    rcases ih with ih | ⟨ih, hn⟩
    · rw [List.length_drop] at ih; omega
    · rw [ih, List.length_drop]; omega

/-! ## Numbers -/

theorem digitChar_nat {n : Nat} (h : n < 10) : (Nat.digitChar n).toNat = 48 + n := by
  match n, h with
  | 0, _ => rfl
  | 1, _ => rfl
  | 2, _ => rfl
  | 3, _ => rfl
  | 4, _ => rfl
  | 5, _ => rfl
  | 6, _ => rfl
  | 7, _ => rfl
  | 8, _ => rfl
  | 9, _ => rfl
  | n + 10, h => omega

theorem decimal_eq (n : Nat) : decimal n = (Nat.toDigits 10 n).map Char.toNat := by
  unfold decimal ascii
  rw [show toString n = n.repr from rfl, Nat.toList_repr]

theorem decimal_small {n : Nat} (h : n < 10) : decimal n = [48 + n] := by
  rw [decimal_eq, Nat.toDigits_of_lt_base h, List.map_singleton, digitChar_nat h]

theorem decimal_large {n : Nat} (h : 10 ≤ n) : decimal n = decimal (n / 10) ++ [48 + n % 10] := by
  rw [decimal_eq, decimal_eq, Nat.toDigits_of_base_le (by decide) h, List.map_append, List.map_singleton, digitChar_nat (by omega)]

theorem decimal_digit {n c : Nat} (h : c ∈ decimal n) : 48 ≤ c ∧ c ≤ 57 := by
  induction n using Nat.strongRecOn with
  | _ n ih =>
    rcases Nat.lt_or_ge n 10 with g | g
    · rw [decimal_small g] at h
      simp at h; omega
    · rw [decimal_large g] at h
      rcases List.mem_append.1 h with h | h
      · exact ih (n / 10) (by omega) h
      · simp at h; omega

theorem decimal_ne (n : Nat) : decimal n ≠ [] := by
  rcases Nat.lt_or_ge n 10 with g | g
  · rw [decimal_small g]; simp
  · rw [decimal_large g]; simp

theorem digits_append {u : Text} (h : ∀ c ∈ u, 48 ≤ c ∧ c ≤ 57) (acc : Nat) (t : Text) : digits acc (u ++ t) = digits (digits acc u) t := by
  induction u generalizing acc with
  | nil => rfl
  | cons c u ih =>
    have hc := h c List.mem_cons_self
    rw [List.cons_append, digits, if_pos hc, digits, if_pos hc, ih fun x hx => h x (List.mem_cons_of_mem _ hx)]

theorem digits_decimal (n : Nat) : digits 0 (decimal n) = n := by
  induction n using Nat.strongRecOn with
  | _ n ih =>
    rcases Nat.lt_or_ge n 10 with g | g
    · rw [decimal_small g, digits, if_pos (by omega), digits]; omega
    · rw [decimal_large g, digits_append (fun c hc => decimal_digit hc), ih (n / 10) (by omega), digits, if_pos (by omega), digits]; omega

theorem stoul_decimal (n : Nat) : stoul (decimal n) = some n := by
  have hd := digits_decimal n
  rcases hu : decimal n with _ | ⟨c, u⟩
  · exact absurd hu (decimal_ne n)
  · have hc : 48 ≤ c ∧ c ≤ 57 := decimal_digit (n := n) (by rw [hu]; exact List.mem_cons_self)
    rw [hu] at hd
    rw [stoul, skipBlanks, if_neg (by omega)]
    simp only
    rw [if_pos hc, hd]

/-! ## The length of the body -/

theorem byte_of_occurs {p t : Text} {i k c : Nat} (h : Occurs p t i) (hk : p[k]? = some c) : t[i + k]? = some c := by
  obtain ⟨u, v, h, hu⟩ := h
  subst hu
  rw [h, List.append_assoc, List.getElem?_append_right (by omega), Nat.add_sub_cancel_left]
  rw [List.getElem?_append_left ((List.getElem?_eq_some_iff.1 hk).1)]
  exact hk

/-- `bodyLength` for a request whose first line `Content-Length:` says how long the body is. -/
theorem bodyLength_eq {a t : Text} {n : Nat} (hfirst : ∀ i, Occurs (ascii "Content-Length:") (a ++ (ascii "Content-Length: " ++ (decimal n ++ (crlf ++ t)))) i → a.length ≤ i) :
    bodyLength (a ++ (ascii "Content-Length: " ++ (decimal n ++ (crlf ++ t)))) = some n := by
  have hf : find (ascii "Content-Length:") (a ++ (ascii "Content-Length: " ++ (decimal n ++ (crlf ++ t)))) = some a.length :=
    find_eq ⟨a, 32 :: (decimal n ++ (crlf ++ t)), by simp [ascii], rfl⟩ hfirst
  have he : findFrom crlf (a ++ (ascii "Content-Length: " ++ (decimal n ++ (crlf ++ t)))) a.length = some ((ascii "Content-Length: " ++ decimal n).length + a.length) := by
    rw [findFrom, List.drop_left]
    have : find crlf (ascii "Content-Length: " ++ (decimal n ++ (crlf ++ t))) = some (ascii "Content-Length: " ++ decimal n).length := by
      refine find_eq ⟨ascii "Content-Length: " ++ decimal n, t, by simp, rfl⟩ fun j hj => ?_
      have h13 := byte_of_occurs hj (show crlf[0]? = some 13 from rfl)
      rcases Nat.lt_or_ge j (ascii "Content-Length: " ++ decimal n).length with g | g
      · rw [← List.append_assoc, Nat.add_zero, List.getElem?_append_left g] at h13
        rcases List.mem_append.1 (List.mem_of_getElem? h13) with h | h
        · exact absurd h (by decide +kernel)
        · have := decimal_digit h; omega
      · exact g
    rw [this]; rfl
  have hd : (a ++ (ascii "Content-Length: " ++ (decimal n ++ (crlf ++ t)))).drop (a.length + 16) = decimal n ++ (crlf ++ t) := by
    rw [← List.append_assoc]
    exact List.drop_left' (by simp [ascii])
  have hl : (ascii "Content-Length: ").length = 16 := by decide +kernel
  rw [bodyLength, hf]
  simp only [he]
  rw [if_neg (by simp only [List.length_append]; omega), if_pos (by simp only [List.length_append]; omega), hd]
  have : (ascii "Content-Length: " ++ decimal n).length + a.length - (a.length + 16) = (decimal n).length := by rw [List.length_append]; omega
  rw [this, List.take_left, stoul_decimal]

end Trident.Http
