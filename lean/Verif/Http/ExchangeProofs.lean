import Verif.Http.Exchange
import Verif.Http.PostProofs
/-!
# A query over HTTP: proofs
-/
namespace Trident.Http

open Spec (Occurs First headerEnd bytes OkStatus SaysLength low)

/-- The headers without the number. -/
def jsonStart : Text := ascii "HTTP/1.1 200 OK\r\nContent-Type: application/json\nContent-Length: "

theorem response_eq (page : Text) : responseText true page = jsonHead page.length ++ (headerEnd ++ page) := by
  simp [responseText, jsonHead, headerEnd, blank]

theorem jsonHead_first (n : Nat) (t : Text) : First headerEnd (jsonHead n) (headerEnd ++ t) := by
  have h0 : headerEnd[0]? = some 13 := rfl
  have f0 : First headerEnd (decimal n ++ []) (headerEnd ++ t) := first_plain h0 (fun h => by have := decimal_digit h; omega) first_nil
  have f1 := first_plain (u := ascii "Content-Type: application/json\nContent-Length: ") h0 (by decide +kernel) f0
  have hc : ascii "Content-Type: application/json\nContent-Length: " = 67 :: ascii "ontent-Type: application/json\nContent-Length: " := by decide +kernel
  have f2 : First headerEnd (crlf ++ (ascii "Content-Type: application/json\nContent-Length: " ++ (decimal n ++ []))) (headerEnd ++ t) := by
    rw [hc] at f1 ⊢
    exact first_line (by decide) f1
  have f3 := first_plain (u := ascii "HTTP/1.1 200 OK") h0 (by decide +kernel) f2
  have e : jsonHead n = ascii "HTTP/1.1 200 OK" ++ (crlf ++ (ascii "Content-Type: application/json\nContent-Length: " ++ (decimal n ++ []))) := by
    have : ascii "HTTP/1.1 200 OK\r\nContent-Type: application/json\nContent-Length: " = ascii "HTTP/1.1 200 OK" ++ (crlf ++ ascii "Content-Type: application/json\nContent-Length: ") := by decide +kernel
    unfold jsonHead
    rw [this]
    simp
  rw [e]
  exact f3

theorem jsonHead_ok (n : Nat) : OkStatus (jsonHead n) := by
  refine ⟨49, ascii "OK\r\nContent-Type: application/json\nContent-Length: " ++ decimal n, ?_⟩
  have : ascii "HTTP/1.1 200 OK\r\nContent-Type: application/json\nContent-Length: " = bytes "HTTP/1." ++ (49 :: (bytes " 200 " ++ ascii "OK\r\nContent-Type: application/json\nContent-Length: ")) := by decide +kernel
  unfold jsonHead
  rw [this]
  simp

theorem jsonHead_length (n : Nat) : SaysLength (jsonHead n) n := by
  refine ⟨ascii "HTTP/1.1 200 OK\r\nContent-Type: application/json\n", ascii "Content-Length:", [], ?_, by decide +kernel, Or.inl rfl, fun u w v h hw => ?_⟩
  · have : ascii "HTTP/1.1 200 OK\r\nContent-Type: application/json\nContent-Length: " = ascii "HTTP/1.1 200 OK\r\nContent-Type: application/json\n" ++ (ascii "Content-Length:" ++ [32]) := by decide +kernel
    unfold jsonHead
    rw [this]
    simp [bytes, decimal, ascii]
  · have ha : (ascii "HTTP/1.1 200 OK\r\nContent-Type: application/json\n").length = 48 := by decide +kernel
    have hl : (ascii "HTTP/1.1 200 OK\r\nContent-Type: application/json\nContent-Length: ").length = 64 := by decide +kernel
    rcases Nat.lt_or_ge u.length (ascii "HTTP/1.1 200 OK\r\nContent-Type: application/json\n").length with g | g
    · exfalso
      rw [ha] at g
      have hocc : Occurs (bytes "content-length:") (low (jsonHead n)) u.length := ⟨low u, low v, by rw [h, low_append, low_append, hw, List.append_assoc], List.length_map _⟩
      have e : low (jsonHead n) = low (ascii "HTTP/1.1 200 OK\r\nContent-Type: application/json\nContent-Length: ") ++ decimal n := by rw [jsonHead, low_append, low_decimal]
      have h0 := byte_of_occurs hocc (show (bytes "content-length:")[0]? = some 99 by decide +kernel)
      have h8 := byte_of_occurs hocc (show (bytes "content-length:")[8]? = some 108 by decide +kernel)
      have hll : (low (ascii "HTTP/1.1 200 OK\r\nContent-Type: application/json\nContent-Length: ")).length = 64 := by decide +kernel
      rw [e, List.getElem?_append_left (by omega)] at h0 h8
      have key : ∀ j, j < 48 → (low (ascii "HTTP/1.1 200 OK\r\nContent-Type: application/json\nContent-Length: "))[j]? = some 99 →
        (low (ascii "HTTP/1.1 200 OK\r\nContent-Type: application/json\nContent-Length: "))[j + 8]? ≠ some 108 := by decide +kernel
      exact key u.length g h0 h8
    · exact g

/-- A text in parts of at most 1024 bytes. -/
theorem parts (t : Text) : ∃ bufs : List Text, bufs.flatten = t ∧ (∀ b ∈ bufs, 1 ≤ b.length ∧ b.length ≤ 1024) ∧ (t ≠ [] → ∃ b l, bufs = b :: l ∧ b.length = min 1024 t.length) := by
  generalize hn : t.length = n
  induction n using Nat.strongRecOn generalizing t with
  | _ n ih =>
    by_cases ht : t = []
    · exact ⟨[], by simp [ht], by simp, fun h => absurd ht h⟩
    · have hl := List.length_pos_iff.2 ht
      obtain ⟨bufs, h1, h2, _⟩ := ih (t.drop 1024).length (by rw [List.length_drop]; omega) (t.drop 1024) rfl
      refine ⟨t.take 1024 :: bufs, by rw [List.flatten_cons, h1, List.take_append_drop], fun b hb => ?_, fun _ => ⟨_, _, rfl, by rw [List.length_take, hn]⟩⟩
      rcases List.mem_cons.1 hb with e | e
      · rw [e, List.length_take]; omega
      · exact h2 b e

/-- A response that comes with its headers at once. -/
theorem response_read {page : Text} {b : Text} {bufs : List Text} (h : (b :: bufs).flatten = responseText true page) (hb : (jsonHead page.length).length + 4 ≤ b.length)
    (hne : ∀ b ∈ bufs, b ≠ []) (f : Nat) : getResponse (f + 1) (b :: bufs) = .ok (jsonHead page.length) page := by
  rw [response_eq, List.flatten_cons] at h
  have e1 : b = jsonHead page.length ++ (blank ++ b.drop ((jsonHead page.length).length + 4)) := by
    have ht := congrArg (List.take ((jsonHead page.length).length + 4)) h
    rw [List.take_append_of_le_length hb, ← List.append_assoc, List.take_left' (by simp [headerEnd])] at ht
    rw [← List.append_assoc, show jsonHead page.length ++ blank = b.take ((jsonHead page.length).length + 4) from ht.symm, List.take_append_drop]
  have e2 : b.drop ((jsonHead page.length).length + 4) ++ bufs.flatten = page := by
    have hd := congrArg (List.drop ((jsonHead page.length).length + 4)) h
    rw [List.drop_append_of_le_length hb, ← List.append_assoc, List.drop_left' (by simp [headerEnd])] at hd
    exact hd
  generalize b.drop ((jsonHead page.length).length + 4) = rest at e1 e2
  rw [e1]
  have := getResponse_length (f := f) (jsonHead_first page.length rest) (badStatus_ok (jsonHead_ok page.length)) (kindOf_length (jsonHead_length page.length)) hne (by rw [e2])
  rw [e2] at this
  exact this

end Trident.Http
