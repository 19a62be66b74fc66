import Verif.Http.Escape
import Verif.Http.FormSpec
/-!
# Percent-encoding: proofs
-/
namespace Trident.Http

open Spec (Decodes Percent Unreserved hexVal)

theorem hexVal_digit {a x : Nat} (h : hexVal a = some x) : isXDigit a = true ∧ a ≠ 0 ∧ digitOf a = x ∧ x < 16 := by
  unfold hexVal at h
  unfold isXDigit digitOf
  split at h
  · injection h with h; simp; split <;> split <;> omega
  · split at h
    · injection h with h; simp; split <;> split <;> omega
    · split at h
      · injection h with h; simp; split <;> split <;> omega
      · cases h

theorem unescape_hex {a b x y : Nat} (ha : hexVal a = some x) (hb : hexVal b = some y) (t : Text) : unescape (37 :: a :: b :: t) = (16 * x + y) :: unescape t := by
  obtain ⟨h1, h2, h3, h4⟩ := hexVal_digit ha
  obtain ⟨g1, g2, g3, g4⟩ := hexVal_digit hb
  rw [unescape, if_neg (by decide), if_pos ⟨rfl, h2, g2, h1, g1⟩, h3, g3]
  congr 1
  omega

theorem unescape_plain {c : Nat} (h1 : c ≠ 43) (h2 : c ≠ 37) (h3 : c ≠ 0) (t : Text) : unescape (c :: t) = c :: unescape t := by
  rcases t with _ | ⟨a, _ | ⟨b, t⟩⟩
  · simp [unescape, h1, h3]
  · simp only [unescape, h1, h3, if_false]
  · rw [unescape, if_neg h3, if_neg (fun h => h2 h.1), if_neg h1]

theorem unescape_plus (t : Text) : unescape (43 :: t) = 32 :: unescape t := by
  rcases t with _ | ⟨a, _ | ⟨b, t⟩⟩ <;> simp [unescape]

theorem unescape_decodes {t s : Text} (h : Decodes t s) : unescape t = s := by
  induction h with
  | nil => rfl
  | plus _ ih => rw [unescape_plus, ih]
  | hex ha hb _ ih => rw [unescape_hex ha hb, ih]
  | plain h1 h2 h3 _ _ _ ih => rw [unescape_plain h1 h2 h3, ih]

theorem hexVal_upper {n : Nat} (h : n < 16) : hexVal (hexUpper n) = some n := by
  unfold hexUpper hexVal
  split
  · rw [if_pos (by omega)]; congr 1; omega
  · rw [if_neg (by omega), if_pos (by omega)]; congr 1; omega

theorem unreserved_iff (c : Nat) : (isAlnum c = true ∨ c = 45 ∨ c = 95 ∨ c = 46 ∨ c = 126) ↔ Unreserved c := by
  unfold isAlnum Unreserved
  simp only [Bool.or_eq_true, Bool.and_eq_true, decide_eq_true_eq]
  omega

theorem escape_percent {s : Text} (h : ∀ c ∈ s, c < 256) : Percent s (escape s) := by
  induction s with
  | nil => exact .nil
  | cons c s ih =>
    have hc := h c List.mem_cons_self
    have ih := ih fun x hx => h x (List.mem_cons_of_mem _ hx)
    rw [escape]
    split
    · rename_i e
      exact .plain ((unreserved_iff c).1 e) ih
    · rename_i e
      have hd : 16 * (c / 16) + c % 16 = c := by omega
      have := @Percent.hex (hexUpper (c / 16)) (hexUpper (c % 16)) (c / 16) (c % 16) s (escape s) (by rw [hd]; exact fun g => e ((unreserved_iff c).2 g))
        (hexVal_upper (by omega)) (hexVal_upper (by omega)) ih
      rw [hd] at this
      exact this

theorem percent_decodes {s t : Text} (h : Percent s t) : Decodes t s := by
  induction h with
  | nil => exact .nil
  | @plain c s t hu _ ih => unfold Unreserved at hu; exact .plain (by omega) (by omega) (by omega) (by omega) (by omega) ih
  | hex _ ha hb _ ih => exact .hex ha hb ih

end Trident.Http
