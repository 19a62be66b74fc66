import Verif.Http.ServerProofs
/-!
# Receiving a request and sending a response: proofs
-/
namespace Trident.Http

open Spec (Occurs First Framed headerEnd bytes)

theorem bytes_eq (s : String) : bytes s = ascii s := rfl

/-- An occurrence in the first part of a text. -/
theorem Occurs.append {p t u : Text} {i : Nat} (h : Occurs p t i) : Occurs p (t ++ u) i := by
  obtain ⟨a, b, h, ha⟩ := h
  exact ⟨a, b ++ u, by rw [h]; simp, ha⟩

/-- An occurrence that ends in the first part of a text. -/
theorem occurs_left {p t u : Text} {i : Nat} (h : Occurs p (t ++ u) i) (hi : i + p.length ≤ t.length) : Occurs p t i := by
  obtain ⟨a, b, h, ha⟩ := h
  refine ⟨a, t.drop (i + p.length), ?_, ha⟩
  have h1 : t.take (i + p.length) = a ++ p := by
    have := congrArg (List.take (i + p.length)) h
    rw [List.take_append_of_le_length hi, List.take_append_of_le_length (by rw [List.length_append, ha]; omega)] at this
    rw [this, List.take_of_length_le (by rw [List.length_append, ha]; omega)]
  rw [← h1, List.take_append_drop]

/-- What `stillToRead` gives if the headers are in the first read. -/
theorem stillToRead_framed {s head body : Text} (h : Framed s head body) {k : Nat} (hk : head.length + 4 ≤ k) :
    stillToRead (s.take k) = some (if 0 < body.length then ((s.length : Int) - 1028) else 0) := by
  obtain ⟨hs, ⟨_, hf⟩, a, b, hcl, hfirst⟩ := h
  have hl : (head ++ headerEnd).length ≤ k := by simp [headerEnd]; omega
  have htake : s.take k = (head ++ headerEnd) ++ body.take (k - (head ++ headerEnd).length) := by
    rw [hs, ← List.append_assoc, List.take_append, List.take_of_length_le hl]
  have hblank : find blank (s.take k) = some head.length := by
    rw [htake]
    refine find_eq ⟨head, body.take (k - (head ++ headerEnd).length), by simp [headerEnd, blank], rfl⟩ fun j hj => ?_
    refine hf j ?_
    have : head ++ (headerEnd ++ body) = s.take k ++ s.drop k := by rw [List.take_append_drop, hs]
    rw [this, htake]
    exact Occurs.append hj
  have hlen : bodyLength (s.take k) = some body.length := by
    rw [htake, hcl]
    have e : a ++ (bytes "Content-Length: " ++ (bytes (toString body.length) ++ ([13, 10] ++ b))) ++ body.take (k - (a ++ (bytes "Content-Length: " ++ (bytes (toString body.length) ++ ([13, 10] ++ b)))).length)
        = a ++ (ascii "Content-Length: " ++ (decimal body.length ++ (crlf ++ (b ++ body.take (k - (a ++ (bytes "Content-Length: " ++ (bytes (toString body.length) ++ ([13, 10] ++ b)))).length))))) := by
      simp [bytes_eq, decimal, crlf]
    rw [e]
    refine bodyLength_eq fun i hi => ?_
    rw [← e, ← hcl] at hi
    rcases Nat.lt_or_ge (head ++ headerEnd).length (i + (ascii "Content-Length:").length) with g | g
    · have h1 := congrArg List.length hcl
      simp only [List.length_append, headerEnd] at h1 g
      have : (ascii "Content-Length:").length = 15 := by decide +kernel
      have h16 : (bytes "Content-Length: ").length = 16 := by decide +kernel
      have : 0 < (bytes (toString body.length)).length := List.length_pos_iff.2 (decimal_ne body.length)
      simp only [List.length_cons, List.length_nil] at h1 g
      omega
    · obtain ⟨u, v, huv, hu⟩ := occurs_left hi g
      rw [← hu]
      exact hfirst u v (by rw [huv, bytes_eq, List.append_assoc])
  rw [stillToRead, hlen, hblank]
  have : s.length = head.length + 4 + body.length := by rw [hs]; simp [headerEnd]; omega
  simp only [Option.getD_some]
  split
  · congr 1; omega
  · rfl

/-! ## Sending -/

theorem sendLoop_all {res : Text} {sched : List (Option Nat)} (h : ∀ x ∈ sched, x ≠ none) {size : Nat} {out : Text} (ho : sendLoop res size sched = some out) : out = res.drop size := by
  induction sched generalizing size out with
  | nil => cases ho
  | cons x sched ih =>
    have ih := fun size out => @ih (fun y hy => h y (List.mem_cons_of_mem _ hy)) size out
    cases x with
    | none => exact absurd rfl (h none List.mem_cons_self)
    | some n =>
      rw [sendLoop] at ho
      split at ho
      · rcases hs : sendLoop res (size + min n (res.length - size)) sched with _ | o
        · rw [hs] at ho; cases ho
        · rw [hs] at ho
          injection ho with ho
          rw [← ho, ih _ _ hs, ← List.drop_drop]
          exact List.take_append_drop _ _
      · injection ho with ho
        rw [← ho]
        exact List.take_of_length_le (by rw [List.length_drop]; omega)

theorem sendLoop_ends {res : Text} {sched : List (Option Nat)} (h : ∀ x ∈ sched, ∃ n, x = some n ∧ 1 ≤ n) {size : Nat} (hne : sched ≠ []) (hl : res.length ≤ size + sched.length) :
    ∃ out, sendLoop res size sched = some out := by
  induction sched generalizing size with
  | nil => exact absurd rfl hne
  | cons x sched ih =>
    obtain ⟨n, rfl, hn⟩ := h x List.mem_cons_self
    rw [sendLoop]
    split
    · rename_i hlt
      simp only [List.length_cons] at hl
      have hpos : sched ≠ [] := by
        intro e
        rw [e] at hl
        simp only [List.length_nil] at hl
        omega
      obtain ⟨o, ho⟩ := ih (size := size + min n (res.length - size)) (fun y hy => h y (List.mem_cons_of_mem _ hy)) hpos (by omega)
      exact ⟨_, by rw [ho]; rfl⟩
    · exact ⟨_, rfl⟩

end Trident.Http
