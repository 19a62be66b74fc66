import Verif.Http.Client
import Verif.Http.SendProofs
/-!
# The client: proofs
-/
namespace Trident.Http

open Spec (Occurs First headerEnd bytes Number Chunks Pieces hexVal low OkStatus SaysLength SaysChunked)

/-! ## A body of known length -/

theorem find_crlf {u t : Text} (h : 13 ∉ u) : find crlf (u ++ (crlf ++ t)) = some u.length := by
  refine find_eq ⟨u, t, by simp, rfl⟩ fun j hj => ?_
  have h13 := byte_of_occurs hj (show crlf[0]? = some 13 from rfl)
  rcases Nat.lt_or_ge j u.length with g | g
  · rw [Nat.add_zero, List.getElem?_append_left g] at h13
    exact absurd (List.mem_of_getElem? h13) h
  · exact g

theorem inner_length {f : Nat} {b : Text} {size cur : Nat} {r : Text} (hf : b.length ≤ f) (h : cur + b.length ≤ size) : inner f b size cur r = .more size (cur + b.length) (r ++ b) := by
  rcases b with _ | ⟨c, b⟩
  · cases f <;> simp [inner]
  · rcases f with _ | f
    · simp at hf
    · rw [inner, if_pos (by simp at h; omega)]
      have hk : min (size - cur) (c :: b).length = (c :: b).length := by omega
      simp only [hk, List.drop_length, List.take_length]
      cases f <;> simp [inner]

theorem bodyLoop_length {headers : Text} {bufs : List Text} {size cur : Nat} {r : Text} (hne : ∀ b ∈ bufs, b ≠ []) (h : cur + bufs.flatten.length = size) :
    bodyLoop headers false bufs size cur r = .ok headers (r ++ bufs.flatten) := by
  induction bufs generalizing cur r with
  | nil => simp [bodyLoop]
  | cons b bufs ih =>
    rw [List.flatten_cons, List.length_append] at h
    rw [bodyLoop, inner_length (Nat.le_refl _) (by omega)]
    simp only
    by_cases hc : cur + b.length = size
    · rw [if_pos (by simp [hc])]
      have : bufs = [] := by
        rcases bufs with _ | ⟨d, bufs⟩
        · rfl
        · have := List.length_pos_iff.2 (hne d (by simp))
          rw [List.flatten_cons, List.length_append] at h
          omega
      simp [this]
    · rw [if_neg (by simp [hc]), ih (fun x hx => hne x (List.mem_cons_of_mem _ hx)) (by omega)]
      simp

theorem withRest_flatten (rest : Text) (bufs : List Text) : (withRest rest bufs).flatten = rest ++ bufs.flatten := by
  unfold withRest
  split
  · rename_i h; simp [h]
  · simp

theorem withRest_ne {rest : Text} {bufs : List Text} (h : ∀ b ∈ bufs, b ≠ []) : ∀ b ∈ withRest rest bufs, b ≠ [] := by
  unfold withRest
  split
  · exact h
  · rename_i hr
    intro b hb
    rcases List.mem_cons.1 hb with e | e
    · exact e ▸ hr
    · exact h b e

theorem find_blank {head t : Text} (h : First headerEnd head (headerEnd ++ t)) : find blank (head ++ (blank ++ t)) = some head.length :=
  find_eq ⟨head, t, by simp, rfl⟩ h.2

/-- The headers are in the first buffer and the length of the body is known. -/
theorem getResponse_length {f : Nat} {head rest : Text} {bufs : List Text} {n : Nat} (hfirst : First headerEnd head (headerEnd ++ rest)) (hst : badStatus head = false)
    (hkind : kindOf head = some (.length n)) (hne : ∀ b ∈ bufs, b ≠ []) (hlen : (rest ++ bufs.flatten).length = n) :
    getResponse (f + 1) ((head ++ (blank ++ rest)) :: bufs) = .ok head (rest ++ bufs.flatten) := by
  rw [getResponse, headerLoop]
  simp only [List.nil_append, find_blank hfirst, List.take_left, hst, hkind]
  have hd : (head ++ (blank ++ rest)).drop (head.length + 4) = rest := by
    rw [← List.append_assoc]
    exact List.drop_left' (by simp [blank])
  rw [if_neg (by simp), if_neg (by simp [blank]), hd, bodyLoop_length (withRest_ne hne) (by rw [withRest_flatten]; omega), withRest_flatten]
  rfl

theorem badStatus_ok {head : Text} (h : OkStatus head) : badStatus head = false := by
  obtain ⟨c, t, rfl⟩ := h
  have h1 : (ascii "HTTP/1").isPrefixOf (bytes "HTTP/1." ++ (c :: (bytes " 200 " ++ t))) = true :=
    List.isPrefixOf_iff_prefix.2 ⟨46 :: c :: (bytes " 200 " ++ t), by rw [show bytes "HTTP/1." = ascii "HTTP/1" ++ [46] by decide +kernel]; simp⟩
  have h2 : ((bytes "HTTP/1." ++ (c :: (bytes " 200 " ++ t))).drop 9).take 3 = ascii "200" := by
    rw [show bytes "HTTP/1." = [72, 84, 84, 80, 47, 49, 46] by decide +kernel, show bytes " 200 " = [32, 50, 48, 48, 32] by decide +kernel, show ascii "200" = [50, 48, 48] by decide +kernel]
    rfl
  unfold badStatus
  rw [h1, h2]
  simp

theorem low_eq (t : Text) : lower t = low t := rfl

theorem low_append (s t : Text) : low (s ++ t) = low s ++ low t := List.map_append

theorem low_decimal (n : Nat) : low (decimal n) = decimal n := by
  unfold low
  have : ∀ c ∈ decimal n, (fun c => if 65 ≤ c ∧ c ≤ 90 then c + 32 else c) c = id c := by
    intro c hc
    have := decimal_digit hc
    simp only [id]
    rw [if_neg (by omega)]
  rw [List.map_congr_left this, List.map_id]

theorem kindOf_length {head : Text} {n : Nat} (h : SaysLength head n) : kindOf head = some (.length n) := by
  obtain ⟨a, name, b, hh, hname, hb, hfirst⟩ := h
  have hlow : lower head = low a ++ (ascii "content-length:" ++ (32 :: (decimal n ++ low b))) := by
    rw [low_eq, hh, low_append, low_append, hname]
    show low a ++ (bytes "content-length:" ++ (32 :: low (decimal n ++ b))) = _
    rw [low_append, low_decimal]
    rfl
  have hla : (low a).length = a.length := List.length_map _
  have hf : find (ascii "content-length:") (lower head) = some a.length := by
    rw [hlow]
    refine find_eq ⟨low a, 32 :: (decimal n ++ low b), by simp, hla⟩ fun j hj => ?_
    rw [← hlow] at hj
    obtain ⟨u, v, huv, hu⟩ := hj
    have hlen := congrArg List.length huv
    rw [low_eq, show (low head).length = head.length from List.length_map _, List.length_append, List.length_append, hu] at hlen
    have h1 : low ((head.drop j).take (ascii "content-length:").length) = bytes "content-length:" := by
      unfold low
      rw [List.map_take, List.map_drop]
      show ((lower head).drop j).take _ = _
      rw [huv, List.append_assoc, ← hu, List.drop_left, List.take_left]
      rfl
    have := hfirst (head.take j) ((head.drop j).take (ascii "content-length:").length) ((head.drop j).drop (ascii "content-length:").length)
      (by rw [List.take_append_drop, List.take_append_drop]) h1
    rw [List.length_take] at this
    omega
  have h16 : (ascii "content-length:").length = 15 := by decide +kernel
  have hdrop : (lower head).drop (a.length + 16) = decimal n ++ low b := by
    have : lower head = (low a ++ (ascii "content-length:" ++ [32])) ++ (decimal n ++ low b) := by rw [hlow]; simp
    rw [this]
    exact List.drop_left' (by simp only [List.length_append, hla, h16]; rfl)
  have h13 : 13 ∉ decimal n := fun h => by have := decimal_digit h; omega
  have hline : (decimal n ++ low b).take ((find crlf (decimal n ++ low b)).getD (decimal n ++ low b).length) = decimal n := by
    rcases hb with rfl | ⟨r, rfl⟩
    · have : find crlf (decimal n ++ low []) = none := by
        refine find_none fun j hj => ?_
        have := List.mem_of_getElem? (byte_of_occurs hj (show crlf[0]? = some 13 from rfl))
        rw [show low [] = [] from rfl, List.append_nil] at this
        exact h13 this
      rw [this, show low [] = [] from rfl]
      simp
    · rw [show low (13 :: 10 :: r) = crlf ++ low r from rfl, find_crlf h13, Option.getD_some, List.take_left]
  unfold kindOf
  simp only [hf]
  rw [if_neg (by rw [hlow]; simp only [List.length_append, hla, h16, List.length_cons]; omega), hdrop, hline, stoul_decimal]
  rfl

theorem kindOf_chunked {head : Text} (h : SaysChunked head) : kindOf head = some .chunked := by
  unfold kindOf
  simp only
  rw [show find (ascii "content-length:") (lower head) = none from find_none h.2]
  simp only
  rw [if_pos]
  intro e
  obtain ⟨i, hi⟩ := h.1
  have : ∀ t i, Occurs (ascii "transfer-encoding: chunked") t i → find (ascii "transfer-encoding: chunked") t ≠ none := by
    intro t
    induction t with
    | nil =>
      intro i hi
      obtain ⟨u, v, h, _⟩ := hi
      have := congrArg List.length h
      simp [ascii] at this
    | cons c t ih =>
      intro i hi
      rw [find]
      split
      · simp
      · rename_i hp
        rcases i with _ | i
        · exact absurd (List.isPrefixOf_iff_prefix.2 (occurs_zero.1 hi)) hp
        · simpa using ih i (occurs_succ.1 hi)
  exact this _ i hi e

/-! ## A body in chunks -/

theorem hexVal_not_crlf {c x : Nat} (h : hexVal c = some x) : c ≠ 13 ∧ c ≠ 10 := by
  have := (hexVal_digit h).1
  unfold isXDigit at this
  simp at this
  omega

theorem number_digits {ds : Text} {n : Nat} (h : Number ds n) : ds ≠ [] ∧ ∀ c ∈ ds, ∃ x, hexVal c = some x := by
  induction h with
  | one h => exact ⟨by simp, fun c hc => by simp at hc; exact ⟨_, hc ▸ h⟩⟩
  | more _ h ih =>
    refine ⟨by simp, fun c hc => ?_⟩
    rcases List.mem_append.1 hc with hc | hc
    · exact ih.2 c hc
    · simp at hc; exact ⟨_, hc ▸ h⟩

theorem hexDigits_append {u : Text} (h : ∀ c ∈ u, ∃ x, hexVal c = some x) (acc : Nat) (t : Text) : hexDigits acc (u ++ t) = hexDigits (hexDigits acc u) t := by
  induction u generalizing acc with
  | nil => rfl
  | cons c u ih =>
    obtain ⟨x, hx⟩ := h c List.mem_cons_self
    have hc := (hexVal_digit hx).1
    rw [List.cons_append, hexDigits, if_pos hc, hexDigits, if_pos hc, ih fun y hy => h y (List.mem_cons_of_mem _ hy)]

theorem hexDigits_number {ds : Text} {n : Nat} (h : Number ds n) : hexDigits 0 ds = n := by
  induction h with
  | one h =>
    obtain ⟨h1, _, h3, _⟩ := hexVal_digit h
    rw [hexDigits, if_pos h1, hexDigits, h3]; omega
  | more hn h ih =>
    obtain ⟨h1, _, h3, _⟩ := hexVal_digit h
    rw [hexDigits_append (number_digits hn).2, ih, hexDigits, if_pos h1, hexDigits, h3]; omega

theorem skipLine_number {ds : Text} {n : Nat} (h : Number ds n) (t : Text) : skipLine (ds ++ t) = ds ++ t ∧ skipLine (crlf ++ (ds ++ t)) = ds ++ t := by
  obtain ⟨hne, hd⟩ := number_digits h
  rcases ds with _ | ⟨c, ds⟩
  · exact absurd rfl hne
  · obtain ⟨x, hx⟩ := hd c List.mem_cons_self
    obtain ⟨h1, h2⟩ := hexVal_not_crlf hx
    simp [skipLine, crlf, h1, h2]

theorem inner_chunks {t data : Text} (h : Chunks t data) : ∀ (f : Nat) (u : Text), (u = [] ∨ u = crlf) → (u ++ t).length ≤ f → ∀ size r, inner f (u ++ t) size size r = .done (r ++ data) := by
  induction h with
  | @last ds t hn =>
    intro f u hu hf size r
    obtain ⟨hne, hd⟩ := number_digits hn
    have hskip : skipLine (u ++ (ds ++ (crlf ++ t))) = ds ++ (crlf ++ t) := by
      rcases hu with rfl | rfl
      · exact (skipLine_number hn _).1
      · exact (skipLine_number hn _).2
    have h13 : 13 ∉ ds := fun h => by obtain ⟨x, hx⟩ := hd 13 h; exact (hexVal_not_crlf hx).1 rfl
    rcases hc : u ++ (ds ++ (crlf ++ t)) with _ | ⟨c, rest⟩
    · have := List.append_eq_nil_iff.1 (List.append_eq_nil_iff.1 hc).2
      exact absurd this.1 hne
    · rcases f with _ | f
      · rw [show u ++ (ds ++ ([13, 10] ++ t)) = c :: rest from hc] at hf; simp at hf
      · rw [show u ++ (ds ++ ([13, 10] ++ t)) = c :: rest from hc, inner, if_neg (by omega)]
        rw [← hc, hskip]
        simp only [find_crlf h13, List.take_left, hexDigits_number hn, if_pos, List.append_nil]
  | @chunk ds d t data hn hd0 _ ih =>
    intro f u hu hf size r
    obtain ⟨hne, hd⟩ := number_digits hn
    have hskip : skipLine (u ++ (ds ++ (crlf ++ (d ++ (crlf ++ t))))) = ds ++ (crlf ++ (d ++ (crlf ++ t))) := by
      rcases hu with rfl | rfl
      · exact (skipLine_number hn _).1
      · exact (skipLine_number hn _).2
    have h13 : 13 ∉ ds := fun h => by obtain ⟨x, hx⟩ := hd 13 h; exact (hexVal_not_crlf hx).1 rfl
    have hlen : (u ++ (ds ++ (crlf ++ (d ++ (crlf ++ t))))).length ≤ f := hf
    have hds := List.length_pos_iff.2 hne
    simp only [List.length_append] at hlen
    have hcr : crlf.length = 2 := rfl
    rcases hc : u ++ (ds ++ (crlf ++ (d ++ (crlf ++ t)))) with _ | ⟨c, rest⟩
    · exact absurd (List.append_eq_nil_iff.1 (List.append_eq_nil_iff.1 hc).2).1 hne
    · rcases f with _ | f
      · omega
      · rw [show u ++ (ds ++ ([13, 10] ++ (d ++ ([13, 10] ++ t)))) = c :: rest from hc, inner, if_neg (by omega)]
        rw [← hc, hskip]
        have hdl : 0 < d.length := List.length_pos_iff.2 hd0
        have hdrop : (ds ++ (crlf ++ (d ++ (crlf ++ t)))).drop (ds.length + 2) = d ++ (crlf ++ t) := by
          rw [← List.append_assoc]
          exact List.drop_left' (by simp [crlf])
        simp only [find_crlf h13, List.take_left, hexDigits_number hn, hdrop]
        rw [if_neg (by omega)]
        rcases hd' : d with _ | ⟨e, d'⟩
        · exact absurd hd' hd0
        · rcases f with _ | f
          · omega
          · rw [List.cons_append, inner, if_pos (by simp)]
            have hk : min ((e :: d').length - 0) (e :: (d' ++ (crlf ++ t))).length = (e :: d').length := by simp
            simp only [hk]
            rw [← List.cons_append, List.drop_left, List.take_left, Nat.zero_add, ih f crlf (Or.inr rfl) (by rw [List.length_append]; omega)]
            simp

/-- The whole response is in one buffer and its body is in chunks. -/
theorem getResponse_chunks {f : Nat} {head t data : Text} {bufs : List Text} (hfirst : First headerEnd head (headerEnd ++ t)) (hst : badStatus head = false)
    (hkind : kindOf head = some .chunked) (h : Chunks t data) : getResponse (f + 1) ((head ++ (blank ++ t)) :: bufs) = .ok head data := by
  rw [getResponse, headerLoop]
  simp only [List.nil_append, find_blank hfirst, List.take_left, hst, hkind]
  have hd : (head ++ (blank ++ t)).drop (head.length + 4) = t := by
    rw [← List.append_assoc]
    exact List.drop_left' (by simp [blank])
  have ht : t ≠ [] := by
    cases h with
    | last hn => simp
    | chunk hn => simp
  rw [if_neg (by simp), if_neg (by simp [blank]), hd, withRest, if_neg ht, bodyLoop]
  have := inner_chunks h t.length [] (Or.inl rfl) (by simp) 0 []
  rw [List.nil_append] at this
  rw [this]
  simp

/-! ## Chunks that come in pieces -/

theorem skipLine_length (t : Text) : (skipLine t).length ≤ t.length := by
  unfold skipLine
  simp only
  split <;> split <;> simp <;> omega

/-- More steps than bytes are not needed. -/
theorem inner_fuel : ∀ (f : Nat) (buf : Text) (size cur : Nat) (r : Text), buf.length ≤ f → inner f buf size cur r = inner buf.length buf size cur r := by
  intro f
  induction f using Nat.strongRecOn with
  | ind f ih =>
    intro buf size cur r h
    rcases buf with _ | ⟨c, buf⟩
    · cases f <;> rfl
    · rcases f with _ | f
      · simp at h
      · simp only [List.length_cons] at h
        simp only [List.length_cons, inner]
        split
        · rename_i hlt
          have hl : ((c :: buf).drop (min (size - cur) (buf.length + 1))).length ≤ buf.length := by
            rw [List.length_drop, List.length_cons]; omega
          rw [ih f (by omega) _ _ _ _ (by omega), ih buf.length (by omega) _ _ _ _ hl]
        · split
          · rfl
          · split
            · rfl
            · rename_i e _ _
              have hs := skipLine_length (c :: buf)
              have hl : ((skipLine (c :: buf)).drop (e + 2)).length ≤ buf.length := by
                rw [List.length_drop]
                simp only [List.length_cons] at hs
                omega
              rw [ih f (by omega) _ _ _ _ (by omega), ih buf.length (by omega) _ _ _ _ hl]

/-- The line with the length of a chunk is read, with the end of the line before it. -/
theorem inner_line {u ds t r : Text} {n size : Nat} (hu : u = [] ∨ u = crlf) (hn : Number ds n) (h0 : n ≠ 0) :
    inner (u ++ (ds ++ (crlf ++ t))).length (u ++ (ds ++ (crlf ++ t))) size size r = inner t.length t n 0 r := by
  obtain ⟨hne, hdig⟩ := number_digits hn
  have h13 : (13 : Nat) ∉ ds := fun h => by
    obtain ⟨x, hx⟩ := hdig 13 h
    simp [hexVal] at hx
  have hskip : skipLine (u ++ (ds ++ (crlf ++ t))) = ds ++ (crlf ++ t) := by
    rcases hu with rfl | rfl
    · exact (skipLine_number hn _).1
    · exact (skipLine_number hn _).2
  have hdrop : (ds ++ (crlf ++ t)).drop (ds.length + 2) = t := by
    rw [← List.append_assoc]
    exact List.drop_left' (by simp [crlf])
  have hds := List.length_pos_iff.2 hne
  have hlen : (u ++ (ds ++ (crlf ++ t))).length = u.length + (ds.length + (2 + t.length)) := by simp [crlf]; omega
  rcases hc : u ++ (ds ++ (crlf ++ t)) with _ | ⟨c, rest⟩
  · exact absurd (List.append_eq_nil_iff.1 (List.append_eq_nil_iff.1 hc).2).1 hne
  · rw [hc, List.length_cons] at hlen
    rw [List.length_cons, inner, if_neg (by omega), ← hc, hskip]
    simp only [find_crlf h13, List.take_left, hexDigits_number hn, hdrop]
    rw [if_neg h0, inner_fuel _ _ _ _ _ (by omega)]

/-- Data of a chunk are read. -/
theorem inner_data {d t r : Text} {n cur : Nat} (h : cur + d.length ≤ n) (ht : t ≠ [] → cur + d.length = n) :
    inner (d ++ t).length (d ++ t) n cur r = inner t.length t n (cur + d.length) (r ++ d) := by
  rcases d with _ | ⟨e, d⟩
  · simp
  · simp only [List.length_cons] at h ht
    have hk : min (n - cur) (e :: (d ++ t)).length = (e :: d).length := by
      simp only [List.length_cons, List.length_append]
      rcases t with _ | ⟨x, t⟩
      · simp; omega
      · have := ht (by simp)
        simp only [List.length_cons]; omega
    rw [List.cons_append, List.length_cons, inner, if_pos (by omega)]
    simp only [hk]
    rw [← List.cons_append, List.drop_left, List.take_left, inner_fuel _ _ _ _ _ (by simp)]

/-- What is known after a buffer is all that counts for the loop. -/
theorem bodyLoop_congr {head : Text} {b b' : Text} {bufs : List Text} {s c s' c' : Nat} {r r' : Text} (h : inner b.length b s c r = inner b'.length b' s' c' r') :
    bodyLoop head true (b :: bufs) s c r = bodyLoop head true (b' :: bufs) s' c' r' := by
  rw [bodyLoop, bodyLoop, h]

/-- A buffer with data only. -/
theorem bodyLoop_data {head d r : Text} {n cur : Nat} {bufs : List Text} (h : cur + d.length ≤ n) :
    bodyLoop head true (d :: bufs) n cur r = bodyLoop head true bufs n (cur + d.length) (r ++ d) := by
  have := inner_data (t := []) (r := r) h (by simp)
  rw [List.append_nil] at this
  rw [bodyLoop, this]
  simp [inner]

theorem bodyLoop_mid {head : Text} {n : Nat} {bufs : List Text} : ∀ (mid : List Text) (cur : Nat) (r : Text), cur + mid.flatten.length ≤ n →
    bodyLoop head true (mid ++ bufs) n cur r = bodyLoop head true bufs n (cur + mid.flatten.length) (r ++ mid.flatten) := by
  intro mid
  induction mid with
  | nil => intro cur r _; simp
  | cons m mid ih =>
    intro cur r h
    simp only [List.flatten_cons, List.length_append] at h
    rw [List.cons_append, bodyLoop_data (by omega), ih _ _ (by omega)]
    simp [Nat.add_assoc]

theorem bodyLoop_pieces {head : Text} {ps : List Text} {data : Text} (h : Pieces ps data) : ∀ (u : Text) (p : Text) (qs : List Text), ps = p :: qs → u = [] ∨ u = crlf → ∀ size r,
    bodyLoop head true ((u ++ p) :: qs) size size r = .ok head (r ++ data) := by
  induction h with
  | @last ds t more hn =>
    intro u p qs e hu size r
    injection e with e1 e2
    subst e1 e2
    have := inner_chunks (.last hn (t := t)) (u ++ (ds ++ (crlf ++ t))).length u hu (Nat.le_refl _) size r
    simp only [bodyLoop]
    generalize hg : inner _ _ size size r = g
    have : g = .done (r ++ []) := hg.symm.trans this
    rw [this]
  | @whole ds d p ps r' hn hd _ ih =>
    intro u p' qs e hu size r
    injection e with e1 e2
    subst e1 e2
    have hl := List.length_pos_iff.2 hd
    have h1 : inner (u ++ (ds ++ (crlf ++ (d ++ (crlf ++ p))))).length (u ++ (ds ++ (crlf ++ (d ++ (crlf ++ p))))) size size r =
        inner (crlf ++ p).length (crlf ++ p) d.length d.length (r ++ d) := by
      rw [inner_line hu hn (by omega), inner_data (by omega) (by omega), Nat.zero_add]
    exact (bodyLoop_congr h1).trans ((ih crlf p ps rfl (Or.inr rfl) _ _).trans (by simp))
  | @cut ds d mid e p ps r' hn hd _ _ ih =>
    intro u p' qs eq hu size r
    injection eq with e1 e2
    subst e1 e2
    have hl := List.length_pos_iff.2 hd
    have hlen : (d ++ (mid.flatten ++ e)).length = d.length + (mid.flatten.length + e.length) := by simp only [List.length_append]
    have h1 : inner (u ++ (ds ++ (crlf ++ d))).length (u ++ (ds ++ (crlf ++ d))) size size r = inner d.length d (d ++ (mid.flatten ++ e)).length 0 r :=
      inner_line hu hn (by omega)
    refine (bodyLoop_congr h1).trans ?_
    rw [bodyLoop_data (by omega), bodyLoop_mid _ _ _ (by omega)]
    have h2 : inner (e ++ (crlf ++ p)).length (e ++ (crlf ++ p)) (d ++ (mid.flatten ++ e)).length (0 + d.length + mid.flatten.length) (r ++ d ++ mid.flatten) =
        inner (crlf ++ p).length (crlf ++ p) (d ++ (mid.flatten ++ e)).length (d ++ (mid.flatten ++ e)).length (r ++ d ++ mid.flatten ++ e) := by
      rw [inner_data (by omega) (by omega)]
      congr 1
      omega
    exact (bodyLoop_congr h2).trans ((ih crlf p ps rfl (Or.inr rfl) _ _).trans (by simp))

/-- The headers are in the first buffer and the body is in chunks that come in pieces. -/
theorem getResponse_pieces {f : Nat} {head rest data : Text} {bufs : List Text} (hfirst : First headerEnd head (headerEnd ++ rest)) (hst : badStatus head = false)
    (hkind : kindOf head = some .chunked) (h : Pieces (withRest rest bufs) data) : getResponse (f + 1) ((head ++ (blank ++ rest)) :: bufs) = .ok head data := by
  rw [getResponse, headerLoop]
  simp only [List.nil_append, find_blank hfirst, List.take_left, hst, hkind]
  have hd : (head ++ (blank ++ rest)).drop (head.length + 4) = rest := by
    rw [← List.append_assoc]
    exact List.drop_left' (by simp [blank])
  rw [if_neg (by simp), if_neg (by simp [blank]), hd]
  generalize withRest rest bufs = ps at h
  rcases hp : ps with _ | ⟨p, qs⟩
  · rw [hp] at h; cases h
  · have := bodyLoop_pieces (head := head) h [] p qs hp (Or.inl rfl) 0 []
    simpa using this

/-! ## Headers that do not come at once -/

/-- If a text starts with a byte that is not in `p`, then `p` does not stand across its start. -/
theorem occurs_across {p x b : Text} {c : Nat} (hc : c ∉ p) (hx : ∀ i, ¬ Occurs p x i) (hb : ∀ i, ¬ Occurs p (c :: b) i) : ∀ i, ¬ Occurs p (x ++ c :: b) i := by
  intro i hi
  rcases Nat.lt_or_ge x.length (i + p.length) with g | g
  · rcases Nat.lt_or_ge i x.length with l | l
    · have hk : x.length - i < p.length := by omega
      have := byte_of_occurs hi (List.getElem?_eq_getElem hk)
      rw [show i + (x.length - i) = x.length by omega, List.getElem?_append_right (Nat.le_refl _)] at this
      simp at this
      exact hc (this ▸ List.getElem_mem hk)
    · obtain ⟨u, v, h, hu⟩ := hi
      refine hb (i - x.length) ⟨u.drop x.length, v, ?_, by rw [List.length_drop, hu]⟩
      have := congrArg (List.drop x.length) h
      rw [List.drop_left, List.append_assoc, List.drop_append_of_le_length (by omega)] at this
      rw [this, List.append_assoc]
  · exact hx i (occurs_left hi g)

theorem headerLoop_loops {c : Nat} {b : Text} (hc : c ∉ headerEnd) (hb : ∀ i, ¬ Occurs headerEnd (c :: b) i) (hst : badStatus (c :: b) = false) (hl : 13 < (c :: b).length) (bufs : List Text)
    (f : Nat) (x : Text) (hx : x = [] ∨ ∃ y, x = (c :: b) ++ y) (hno : ∀ i, ¬ Occurs headerEnd x i) : headerLoop f x (c :: b) bufs = .loops := by
  induction f generalizing x with
  | zero => rfl
  | succ f ih =>
    have hall : ∃ y, x ++ c :: b = (c :: b) ++ y := by
      rcases hx with rfl | ⟨y, rfl⟩
      · exact ⟨[], by simp⟩
      · exact ⟨y ++ c :: b, by simp⟩
    have hno' := occurs_across hc hno hb
    have hbad : badStatus (x ++ c :: b) = false := by
      obtain ⟨y, hy⟩ := hall
      rw [hy]
      unfold badStatus at hst ⊢
      rw [show decide (13 < (c :: b).length) = true by simpa using hl, Bool.true_and, Bool.or_eq_false_iff] at hst
      have h1 : (ascii "HTTP/1").isPrefixOf ((c :: b) ++ y) = true := by
        have h := hst.1
        rw [Bool.not_eq_false'] at h
        exact List.isPrefixOf_iff_prefix.2 ((List.isPrefixOf_iff_prefix.1 h).trans (List.prefix_append _ _))
      have h2 : (((c :: b) ++ y).drop 9).take 3 = ((c :: b).drop 9).take 3 := by
        rw [List.drop_append_of_le_length (by omega), List.take_append_of_le_length (by rw [List.length_drop]; omega)]
      rw [h1, h2, hst.2]
      simp
    rw [headerLoop]
    rw [show find blank (x ++ c :: b) = none from find_none hno']
    simp only [hbad]
    exact ih _ (Or.inr hall) hno'

end Trident.Http
