import Verif.Http.ClientProofs
/-!
# The requests of the client: proofs
-/
namespace Trident.Http

open Spec (Occurs First Framed headerEnd bytes Percent)

theorem occurs_right {p u x : Text} {i : Nat} (h : Occurs p (u ++ x) i) (hi : u.length ≤ i) : Occurs p x (i - u.length) := by
  obtain ⟨a, b, h, ha⟩ := h
  refine ⟨a.drop u.length, b, ?_, by rw [List.length_drop, ha]⟩
  have := congrArg (List.drop u.length) h
  rw [List.drop_left, List.append_assoc, List.drop_append_of_le_length (by omega)] at this
  rw [this, List.append_assoc]

theorem first_plain {c : Nat} {p u w t : Text} (hp : p[0]? = some c) (hc : c ∉ u) (h : First p w t) : First p (u ++ w) t := by
  refine ⟨h.1, fun i hi => ?_⟩
  rw [List.append_assoc] at hi
  rcases Nat.lt_or_ge i u.length with g | g
  · have := byte_of_occurs hi hp
    rw [Nat.add_zero, List.getElem?_append_left g] at this
    exact absurd (List.mem_of_getElem? this) hc
  · have := h.2 _ (occurs_right hi g)
    rw [List.length_append]; omega

theorem first_nil {p t : Text} : First p [] (p ++ t) := ⟨List.prefix_append _ _, fun _ _ => Nat.zero_le _⟩

/-- A line that ends, with a line after it that is not empty. -/
theorem first_line {c : Nat} {w t : Text} (hc : c ≠ 13) (h : First headerEnd (c :: w) t) : First headerEnd (crlf ++ c :: w) t := by
  refine ⟨h.1, fun i hi => ?_⟩
  rw [List.append_assoc] at hi
  match i, hi with
  | 0, hi =>
    have := byte_of_occurs hi (show headerEnd[2]? = some 13 from rfl)
    simp [crlf] at this
    exact absurd this hc
  | 1, hi =>
    have := byte_of_occurs hi (show headerEnd[0]? = some 13 from rfl)
    simp [crlf] at this
  | i + 2, hi =>
    have h2 := occurs_right hi (by simp [crlf])
    have := h.2 _ h2
    simp [crlf] at this ⊢
    omega

/-- The first line of the requests. -/
def postStart : Text := ascii "POST /sparql HTTP/1.1\r\nHost: "

/-- The headers of the requests, up to the type. -/
def postHost (address : Text) (port : Nat) : Text := address ++ (58 :: (decimal port ++ (crlf ++ ascii "Content-Type: ")))

theorem postText_eq (address : Text) (port : Nat) (type body : Text) : postText (ascii "/sparql") address port type body =
    postStart ++ (postHost address port ++ (type ++ (crlf ++ (ascii "Content-Length: " ++ (decimal body.length ++ (blank ++ body)))))) := by
  have : postStart = ascii "POST " ++ (ascii "/sparql" ++ ascii " HTTP/1.1\r\nHost: ") := by decide +kernel
  unfold postText postHost
  rw [this]
  simp

theorem first_form {address : Text} (h47 : 47 ∉ address) (port : Nat) (t : Text) : First formType (postStart ++ postHost address port) (formType ++ t) := by
  refine ⟨List.prefix_append _ _, fun i hi => ?_⟩
  rcases Nat.lt_or_ge i (postStart ++ postHost address port).length with g | g
  · exfalso
    have h11 := byte_of_occurs hi (show formType[11]? = some 47 by decide +kernel)
    have h0 := byte_of_occurs hi (show formType[0]? = some 97 by decide +kernel)
    have hform : formType = ascii "application" ++ ascii "/x-www-form-urlencoded" := by decide +kernel
    have e : postStart ++ postHost address port ++ (formType ++ t) = postStart ++ ((postHost address port ++ ascii "application") ++ (ascii "/x-www-form-urlencoded" ++ t)) := by
      rw [hform]; simp
    rw [e] at h11 h0
    have hal : (ascii "application").length = 11 := by decide +kernel
    have hno : 47 ∉ postHost address port ++ ascii "application" := by
      unfold postHost
      intro hm
      simp only [List.mem_append, List.mem_cons] at hm
      rcases hm with (hm | hm | hm | hm | hm) | hm
      · exact h47 hm
      · cases hm
      · have := decimal_digit hm; omega
      · exact absurd hm (by decide)
      · exact absurd hm (by decide +kernel)
      · exact absurd hm (by decide +kernel)
    rw [List.length_append] at g
    rcases Nat.lt_or_ge (i + 11) postStart.length with l | l
    · rw [List.getElem?_append_left l] at h11
      have key : ∀ j, j < postStart.length → postStart[j]? = some 47 → j = 5 ∨ j = 17 := by decide +kernel
      rcases key _ l h11 with h | h
      · omega
      · have : i = 6 := by omega
        subst this
        rw [List.getElem?_append_left (by omega)] at h0
        exact absurd h0 (by decide +kernel)
    · rw [List.getElem?_append_right l, List.getElem?_append_left (by rw [List.length_append]; omega)] at h11
      exact hno (List.mem_of_getElem? h11)
  · exact g

theorem post_framed {address : Text} (h13 : 13 ∉ address) (hC : 67 ∉ address) (port : Nat) (body : Text) :
    Framed (postText (ascii "/sparql") address port formType body)
      (postStart ++ (postHost address port ++ (formType ++ (crlf ++ (ascii "Content-Length: " ++ decimal body.length))))) body := by
  have hsplit : postStart = ascii "POST /sparql HTTP/1.1" ++ (crlf ++ ascii "Host: ") := by decide +kernel
  have hH : ascii "Host: " = 72 :: ascii "ost: " := by decide +kernel
  have hT : ascii "Content-Type: " = 67 :: ascii "ontent-Type: " := by decide +kernel
  have hL : ascii "Content-Length: " = 67 :: ascii "ontent-Length: " := by decide +kernel
  refine ⟨by rw [postText_eq]; simp [headerEnd, blank], ?_, ?_⟩
  · have h0 : headerEnd[0]? = some 13 := rfl
    have f0 : First headerEnd (decimal body.length ++ []) (headerEnd ++ body) := first_plain h0 (fun h => by have := decimal_digit h; omega) first_nil
    have f1 : First headerEnd (ascii "Content-Length: " ++ (decimal body.length ++ [])) (headerEnd ++ body) := first_plain h0 (by decide +kernel) f0
    have f2 : First headerEnd (crlf ++ (ascii "Content-Length: " ++ (decimal body.length ++ []))) (headerEnd ++ body) := by
      rw [hL] at f1 ⊢; exact first_line (by decide) f1
    have f3 : First headerEnd (formType ++ (crlf ++ (ascii "Content-Length: " ++ (decimal body.length ++ [])))) (headerEnd ++ body) := first_plain h0 (by decide +kernel) f2
    have f4 : First headerEnd (ascii "Content-Type: " ++ (formType ++ (crlf ++ (ascii "Content-Length: " ++ (decimal body.length ++ []))))) (headerEnd ++ body) := first_plain h0 (by decide +kernel) f3
    have f5 : First headerEnd (crlf ++ (ascii "Content-Type: " ++ (formType ++ (crlf ++ (ascii "Content-Length: " ++ (decimal body.length ++ [])))))) (headerEnd ++ body) := by
      rw [hT] at f4 ⊢; exact first_line (by decide) f4
    have f6 := first_plain (u := decimal port) h0 (fun h => by have := decimal_digit h; omega) f5
    have f7 := first_plain (u := [58]) h0 (by decide) f6
    have f8 := first_plain (u := address) h0 h13 f7
    have f9 := first_plain (u := ascii "Host: ") h0 (by decide +kernel) f8
    rw [hH] at f9
    have f10 := first_line (by decide) f9
    have f10 : First headerEnd (crlf ++ (ascii "Host: " ++ (address ++ ([58] ++ (decimal port ++ (crlf ++ (ascii "Content-Type: " ++ (formType ++ (crlf ++ (ascii "Content-Length: " ++ (decimal body.length ++ []))))))))))) (headerEnd ++ body) := by
      rw [hH]; exact f10
    have f11 := first_plain (u := ascii "POST /sparql HTTP/1.1") h0 (by decide +kernel) f10
    rw [hsplit]
    unfold postHost
    simpa using f11
  · refine ⟨postStart ++ (postHost address port ++ (formType ++ crlf)), crlf, by simp [bytes, decimal, ascii, headerEnd, crlf], fun u v huv => ?_⟩
    -- the first `Content-Length:`
    have hocc : Occurs (ascii "Content-Length:") (postStart ++ (address ++ (58 :: (decimal port ++ crlf)) ++ (ascii "Content-Type: " ++ (formType ++ (crlf ++ (ascii "Content-Length: " ++ (decimal body.length ++ headerEnd))))))) u.length :=
      ⟨u, v, by rw [List.append_assoc u, ← bytes_eq "Content-Length:", ← huv]; simp [postHost], rfl⟩
    have h0 := byte_of_occurs hocc (show (ascii "Content-Length:")[0]? = some 67 by decide +kernel)
    have h8 := byte_of_occurs hocc (show (ascii "Content-Length:")[8]? = some 76 by decide +kernel)
    rcases Nat.lt_or_ge u.length (postStart ++ (postHost address port ++ (formType ++ crlf))).length with g | g
    · exfalso
      have hp : postStart.length = 29 := by decide +kernel
      have ht : (ascii "Content-Type: ").length = 14 := by decide +kernel
      have hf : formType.length = 33 := by decide +kernel
      have hcr : crlf.length = 2 := rfl
      unfold postHost at g
      simp only [List.length_append, List.length_cons, hp, ht, hf, hcr] at g
      rw [Nat.add_zero] at h0
      rcases Nat.lt_or_ge u.length postStart.length with l | l
      · rw [List.getElem?_append_left l] at h0
        exact absurd (List.mem_of_getElem? h0) (by decide +kernel)
      · rw [List.getElem?_append_right l] at h0
        rw [List.getElem?_append_right (by omega)] at h8
        rcases Nat.lt_or_ge (u.length - postStart.length) (address ++ (58 :: (decimal port ++ crlf))).length with l2 | l2
        · rw [List.getElem?_append_left l2] at h0
          have hm := List.mem_of_getElem? h0
          simp only [List.mem_append, List.mem_cons] at hm
          rcases hm with hm | hm | hm | hm
          · exact hC hm
          · cases hm
          · have := decimal_digit hm; omega
          · exact absurd hm (by decide)
        · rw [List.getElem?_append_right l2] at h0
          rw [List.getElem?_append_right (by omega)] at h8
          rw [show u.length + 8 - postStart.length - (address ++ (58 :: (decimal port ++ crlf))).length = u.length - postStart.length - (address ++ (58 :: (decimal port ++ crlf))).length + 8 by omega] at h8
          have e : ascii "Content-Type: " ++ (formType ++ (crlf ++ (ascii "Content-Length: " ++ (decimal body.length ++ headerEnd))))
              = (ascii "Content-Type: application/x-www-form-urlencoded\r\nContent-Length: ") ++ (decimal body.length ++ headerEnd) := by
            have : ascii "Content-Type: application/x-www-form-urlencoded\r\nContent-Length: " = ascii "Content-Type: " ++ (formType ++ (crlf ++ ascii "Content-Length: ")) := by decide +kernel
            rw [this]; simp
          rw [e] at h0 h8
          have hl : (ascii "Content-Type: application/x-www-form-urlencoded\r\nContent-Length: ").length = 65 := by decide +kernel
          have hlt : u.length - postStart.length - (address ++ (58 :: (decimal port ++ crlf))).length < 49 := by
            simp only [List.length_append, List.length_cons, hp, hcr] at l2 ⊢; omega
          generalize u.length - postStart.length - (address ++ (58 :: (decimal port ++ crlf))).length = j at h0 h8 hlt
          rw [List.getElem?_append_left (by omega)] at h0 h8
          have key : ∀ j, j < 49 → (ascii "Content-Type: application/x-www-form-urlencoded\r\nContent-Length: ")[j]? = some 67 →
            (ascii "Content-Type: application/x-www-form-urlencoded\r\nContent-Length: ")[j + 8]? ≠ some 76 := by decide +kernel
          exact key j hlt h0 h8
    · exact g

end Trident.Http
