import Verif.Http.PostProofs
/-!
# Properties C93 to C97: percent-encoding, requests and responses

The server is /repo/src/trident/server/server.cpp with /repo/src/trident/utils/httpserver.cpp, the client is /repo/src/trident/utils/httpclient.cpp.
-/
namespace Trident.Http

open Spec (Decodes Percent Occurs First Framed Chunks Pieces Number OkStatus SaysLength SaysChunked headerEnd bytes hexVal)

/-! ## C93: percent-encoding -/

/-- **C93 (encoding).** `escape` writes each byte that is not unreserved with `%` and two digits, and `unescape` gives the bytes back, whatever they are. -/
theorem C93_escape (s : Text) (h : ∀ c ∈ s, c < 256) : Percent s (escape s) ∧ unescape (escape s) = s :=
  ⟨escape_percent h, unescape_decodes (percent_decodes (escape_percent h))⟩

/-- **C93 (decoding).** `unescape` decodes every value of a form, also those that other clients write. -/
theorem C93_unescape {t s : Text} (h : Decodes t s) : unescape t = s := unescape_decodes h

/-- **C93 (different texts).** Different texts are written differently. -/
theorem C93_injective (s t : Text) (hs : ∀ c ∈ s, c < 256) (ht : ∀ c ∈ t, c < 256) (h : escape s = escape t) : s = t := by
  rw [← (C93_escape s hs).2, ← (C93_escape t ht).2, h]

example : escape (ascii "a b+ü") = ascii "a%20b%2B%FC" := by decide +kernel
example : unescape (ascii "a+b%2b%2Bc%0A") = ascii "a b++c\n" := by decide +kernel
example : Decodes (ascii "a+%2B") (ascii "a +") :=
  .plain (by decide) (by decide) (by decide) (by decide) (by decide) (.plus (.hex (x := 2) (y := 11) (by decide) (by decide) .nil))

/-! ## C94: the query that the server runs is the one in the request -/

/-- The text of a request for `/sparql`: the headers `h` up to the type of the form, `m` from there to the parameter, its value `t`, and what follows. -/
def sparqlRequest (h m t rest : Text) : Text :=
  ascii "POST /sparql HTTP" ++ (h ++ (formType ++ (m ++ (ascii "query" ++ 61 :: (t ++ rest)))))

theorem path_sparql (u : Text) : pathOf (ascii "POST /sparql HTTP" ++ u) 5 = some (ascii "/sparql") := by
  have e : ascii "POST /sparql HTTP" = [80, 79, 83, 84, 32, 47, 115, 112, 97, 114, 113, 108, 32, 72, 84, 84, 80] := by decide +kernel
  have eh : ascii "HTTP" = [72, 84, 84, 80] := by decide +kernel
  have es : ascii "/sparql" = [47, 115, 112, 97, 114, 113, 108] := by decide +kernel
  rw [e, es]
  unfold pathOf
  rw [eh]
  simp [find]

theorem post_prefix (u : Text) : (ascii "POST").isPrefixOf (ascii "POST /sparql HTTP" ++ u) = true := by
  refine List.isPrefixOf_iff_prefix.2 ⟨ascii " /sparql HTTP" ++ u, ?_⟩
  rw [← List.append_assoc, show ascii "POST" ++ ascii " /sparql HTTP" = ascii "POST /sparql HTTP" by decide +kernel]

/-- A request for `/sparql`, with the form in it. -/
theorem requestOf_sparql {h form : Text} (hform : First formType (ascii "POST /sparql HTTP" ++ h) form) :
    requestOf (ascii "POST /sparql HTTP" ++ (h ++ form)) =
      some (.sparql (dropReturns (plusToSpace (unescape (valueParam form (ascii "query"))))) (valueParam form (ascii "print") != ascii "false")) := by
  have hf : formOf (ascii "POST /sparql HTTP" ++ (h ++ form)) = some form := by
    obtain ⟨⟨v, hv⟩, hmin⟩ := hform
    have : find formType (ascii "POST /sparql HTTP" ++ (h ++ form)) = some (ascii "POST /sparql HTTP" ++ h).length := by
      rw [← List.append_assoc]
      refine find_eq ⟨ascii "POST /sparql HTTP" ++ h, v, ?_, rfl⟩ hmin
      rw [← hv]; simp
    rw [formOf, this]
    show some ((ascii "POST /sparql HTTP" ++ (h ++ form)).drop (ascii "POST /sparql HTTP" ++ h).length) = _
    rw [← List.append_assoc, List.drop_left]
  rw [requestOf, if_pos (post_prefix _), path_sparql]
  simp only [Option.bind_some, if_true, hf, Option.map_some]

/-- **C94 (query, part).** If the type of the form, and after it the name `query`, are found first where they stand, then the server runs the query that the client encoded, whatever client
it is.  Missing: queries with `+` (`C94_plus_violated`) or with the ends of lines of forms (`C94_lines_violated`), and requests in which the name is also part of another one
(`C94_name_violated`). -/
theorem C94_query_partial {h m t rest s : Text} (hform : First formType (ascii "POST /sparql HTTP" ++ h) (formType ++ (m ++ (ascii "query" ++ 61 :: (t ++ rest)))))
    (hname : First (ascii "query") (formType ++ m) (ascii "query" ++ 61 :: (t ++ rest))) (hrest : rest = [] ∨ ∃ r, rest = 38 :: r)
    (ht : Decodes t s) (hplus : 43 ∉ s) (hlines : ∀ i, ¬ Occurs crlf s i) :
    ∃ json, requestOf (sparqlRequest h m t rest) = some (.sparql s json) := by
  refine ⟨valueParam (formType ++ (m ++ (ascii "query" ++ 61 :: (t ++ rest)))) (ascii "print") != ascii "false", ?_⟩
  have h38 : 38 ∉ t := by
    have hexval : ∀ {a x : Nat}, hexVal a = some x → a ≠ 38 := fun {a x} e => by
      have := (hexVal_digit e).1
      unfold isXDigit at this
      simp at this
      omega
    clear hplus hlines hform hname hrest
    induction ht with
    | nil => simp
    | plus _ ih => simp [ih]
    | hex ha hb _ ih => simp [Ne.symm (hexval ha), Ne.symm (hexval hb), ih]
    | plain _ _ _ hc _ _ ih => simp [Ne.symm hc, ih]
  have hv : valueParam (formType ++ (m ++ (ascii "query" ++ 61 :: (t ++ rest)))) (ascii "query") = t := by
    rw [← List.append_assoc]
    exact valueParam_first hname.2 (by decide +kernel) (by decide +kernel) h38 hrest
  rw [sparqlRequest, requestOf_sparql hform, hv, unescape_decodes ht, plusToSpace_id hplus, dropReturns_id hlines]

/-- **C94 (print, part).** The server leaves the rows out if the parameter `print` is `false`, and only then. -/
theorem C94_print_partial {h m v rest : Text} (hform : First formType (ascii "POST /sparql HTTP" ++ h) (formType ++ (m ++ (ascii "print" ++ 61 :: (v ++ rest)))))
    (hname : First (ascii "print") (formType ++ m) (ascii "print" ++ 61 :: (v ++ rest))) (hrest : rest = [] ∨ ∃ r, rest = 38 :: r) (hv : 38 ∉ v) :
    ∃ query json, requestOf (ascii "POST /sparql HTTP" ++ (h ++ (formType ++ (m ++ (ascii "print" ++ 61 :: (v ++ rest)))))) = some (.sparql query json) ∧ (json = false ↔ v = ascii "false") := by
  have hp : valueParam (formType ++ (m ++ (ascii "print" ++ 61 :: (v ++ rest)))) (ascii "print") = v := by
    rw [← List.append_assoc]
    exact valueParam_first hname.2 (by decide +kernel) (by decide +kernel) hv hrest
  exact ⟨_, _, by rw [requestOf_sparql hform, hp], by simp⟩

/-- Escaped texts have only unreserved bytes and `%`. -/
theorem escape_bytes {s : Text} (h : ∀ c ∈ s, c < 256) {c : Nat} (hc : c ∈ escape s) : c ≠ 38 ∧ c ≠ 61 := by
  have hp := escape_percent h
  have hexval : ∀ {a x : Nat}, hexVal a = some x → a ≠ 38 ∧ a ≠ 61 := fun {a x} e => by
    have := (hexVal_digit e).1
    unfold isXDigit at this
    simp at this
    omega
  generalize escape s = t at hp hc
  clear h
  induction hp with
  | nil => simp at hc
  | plain hu _ ih =>
    rcases List.mem_cons.1 hc with e | e
    · unfold Spec.Unreserved at hu; omega
    · exact ih e
  | hex _ ha hb _ ih =>
    simp only [List.mem_cons] at hc
    rcases hc with e | e | e | e
    · omega
    · exact e ▸ hexval ha
    · exact e ▸ hexval hb
    · exact ih e

/-- The headers from the type on. -/
def typeOn (n : Nat) : Text := formType ++ (crlf ++ (ascii "Content-Length: " ++ (decimal n ++ blank)))

theorem no_q (n : Nat) : 113 ∉ typeOn n := by
  intro h
  simp only [typeOn, List.mem_append] at h
  rcases h with h | h | h | h | h
  · exact absurd h (by decide +kernel)
  · exact absurd h (by decide)
  · exact absurd h (by decide +kernel)
  · have := decimal_digit h; omega
  · exact absurd h (by decide)

theorem no_print (n : Nat) (t : Text) : First (ascii "print") (typeOn n) (ascii "print" ++ t) := by
  refine ⟨List.prefix_append _ _, fun i hi => ?_⟩
  rcases Nat.lt_or_ge i (typeOn n).length with g | g
  · exfalso
    have h0 := byte_of_occurs hi (show (ascii "print")[0]? = some 112 by decide +kernel)
    have h1 := byte_of_occurs hi (show (ascii "print")[1]? = some 114 by decide +kernel)
    rw [Nat.add_zero, List.getElem?_append_left g] at h0
    unfold typeOn at h0 h1
    rcases Nat.lt_or_ge i formType.length with l | l
    · rw [List.getElem?_append_left l] at h0
      have key : ∀ j, j < formType.length → formType[j]? = some 112 → j + 1 < formType.length ∧ formType[j + 1]? ≠ some 114 := by decide +kernel
      obtain ⟨k1, k2⟩ := key i l h0
      rw [List.append_assoc, List.getElem?_append_left k1] at h1
      exact k2 h1
    · rw [List.getElem?_append_right l] at h0
      have hm := List.mem_of_getElem? h0
      simp only [List.mem_append] at hm
      rcases hm with hm | hm | hm | hm
      · exact absurd hm (by decide)
      · exact absurd hm (by decide +kernel)
      · have := decimal_digit hm; omega
      · exact absurd hm (by decide)
  · exact g

/-- **C94 (the client, part).** A query that the client escapes and posts with the parameters `print` and `query` is the query that the server runs.
Missing: as for `C94_query_partial`. -/
theorem C94_post_partial {address p q : Text} (port : Nat) (haddress : 47 ∉ address) (hp : 113 ∉ p ∧ 38 ∉ p) (hq : ∀ c ∈ q, c < 256) (hplus : 43 ∉ q) (hlines : ∀ i, ¬ Occurs crlf q i) :
    requestOf (postText (ascii "/sparql") address port formType (formText [(ascii "print", p), (ascii "query", escape q)])) = some (.sparql q (p != ascii "false")) := by
  have hbody : formText [(ascii "print", p), (ascii "query", escape q)] = ascii "print" ++ 61 :: (p ++ (38 :: (ascii "query" ++ 61 :: escape q))) := by
    have h1 : ascii "print" ≠ [] := by decide +kernel
    have h2 : ascii "query" ≠ [] := by decide +kernel
    simp [formText, h1, h2]
  rw [hbody, postText_eq]
  generalize hn : (ascii "print" ++ 61 :: (p ++ (38 :: (ascii "query" ++ 61 :: escape q)))).length = n
  have hst : postStart = ascii "POST /sparql HTTP" ++ ascii "/1.1\r\nHost: " := by decide +kernel
  have e : postStart ++ (postHost address port ++ (formType ++ (crlf ++ (ascii "Content-Length: " ++ (decimal n ++ (blank ++ (ascii "print" ++ 61 :: (p ++ (38 :: (ascii "query" ++ 61 :: escape q)))))))))) =
      ascii "POST /sparql HTTP" ++ ((ascii "/1.1\r\nHost: " ++ postHost address port) ++ (formType ++ ((crlf ++ (ascii "Content-Length: " ++ (decimal n ++ blank))) ++
        (ascii "print" ++ 61 :: (p ++ (38 :: (ascii "query" ++ 61 :: escape q))))))) := by
    rw [hst]; simp
  rw [e, requestOf_sparql]
  · have hvq : valueParam (formType ++ ((crlf ++ (ascii "Content-Length: " ++ (decimal n ++ blank))) ++ (ascii "print" ++ 61 :: (p ++ (38 :: (ascii "query" ++ 61 :: escape q)))))) (ascii "query") = escape q := by
      have e2 : formType ++ ((crlf ++ (ascii "Content-Length: " ++ (decimal n ++ blank))) ++ (ascii "print" ++ 61 :: (p ++ (38 :: (ascii "query" ++ 61 :: escape q))))) =
          (typeOn n ++ (ascii "print" ++ 61 :: (p ++ [38]))) ++ (ascii "query" ++ 61 :: (escape q ++ [])) := by simp [typeOn]
      rw [e2]
      refine valueParam_first (fun i hi => ?_) (by decide +kernel) (by decide +kernel) (fun h => (escape_bytes hq h).1 rfl) (Or.inl rfl)
      have hf : First (ascii "query") ((typeOn n ++ (ascii "print" ++ 61 :: (p ++ [38]))) ++ []) (ascii "query" ++ 61 :: (escape q ++ [])) := by
        refine first_plain (show (ascii "query")[0]? = some 113 by decide +kernel) ?_ first_nil
        intro h
        simp only [List.mem_append, List.mem_cons] at h
        rcases h with h | h | h | h | h
        · exact no_q n h
        · exact absurd h (by decide +kernel)
        · cases h
        · exact hp.1 h
        · revert h; decide
      rw [List.append_nil] at hf
      exact hf.2 i hi
    have hvp : valueParam (formType ++ ((crlf ++ (ascii "Content-Length: " ++ (decimal n ++ blank))) ++ (ascii "print" ++ 61 :: (p ++ (38 :: (ascii "query" ++ 61 :: escape q)))))) (ascii "print") = p := by
      have e2 : formType ++ ((crlf ++ (ascii "Content-Length: " ++ (decimal n ++ blank))) ++ (ascii "print" ++ 61 :: (p ++ (38 :: (ascii "query" ++ 61 :: escape q))))) =
          typeOn n ++ (ascii "print" ++ 61 :: (p ++ (38 :: (ascii "query" ++ 61 :: escape q)))) := by simp [typeOn]
      rw [e2]
      exact valueParam_first (no_print n _).2 (by decide +kernel) (by decide +kernel) hp.2 (Or.inr ⟨_, rfl⟩)
    rw [hvq, hvp, (C93_escape q hq).2, plusToSpace_id hplus, dropReturns_id hlines]
  · have := first_form haddress port ((crlf ++ (ascii "Content-Length: " ++ (decimal n ++ blank))) ++ (ascii "print" ++ 61 :: (p ++ (38 :: (ascii "query" ++ 61 :: escape q)))))
    rw [hst] at this
    simpa using this

/-- **C94 (plus, violated).** The server never runs a query with `+` in it, whatever the request is: `FILTER(?x = "a+b")`, `1 + 2` and `<p>+` cannot be sent. -/
theorem C94_plus_violated (s : Text) (hs : 43 ∈ s) (req : Text) (json : Bool) : requestOf req ≠ some (.sparql s json) := by
  intro e
  have key : ∀ v, dropReturns (plusToSpace v) ≠ s := fun v e => no_plus v (mem_dropReturns (e ▸ hs))
  unfold requestOf at e
  split at e
  · rcases hp : pathOf req 5 with _ | path
    · rw [hp] at e; cases e
    · rw [hp] at e
      simp only [Option.bind_some] at e
      split at e
      · rcases hf : formOf req with _ | form
        · rw [hf] at e; cases e
        · rw [hf] at e
          simp only [Option.map_some, Option.some.injEq, Request.sparql.injEq] at e
          exact key _ e.1
      · split at e
        · rcases hf : formOf req with _ | form
          · rw [hf] at e; cases e
          · rw [hf] at e; simp at e
        · simp at e
  · split at e
    · rcases hp : pathOf req 4 with _ | path
      · rw [hp] at e; cases e
      · rw [hp] at e
        simp only [Option.map_some, Option.some.injEq] at e
        split at e <;> cases e
    · simp at e

/-- A request as browsers send it. -/
def browser (form : String) : Text :=
  ascii "POST /sparql HTTP/1.1\r\nHost: localhost:8080\r\nContent-Type: application/x-www-form-urlencoded\r\nContent-Length: " ++ (decimal form.length ++ (blank ++ ascii form))

/-- **C94 (lines, violated).** A line feed after a carriage return: the carriage return is lost, also in a literal. -/
theorem C94_lines_violated : ∃ t s, Decodes t s ∧ 43 ∉ s ∧ requestOf (browser "query=%0D%0A") = some (.sparql [10] true) ∧ t = ascii "%0D%0A" ∧ s ≠ [10] := by
  refine ⟨_, [13, 10], ?_, by decide, by decide +kernel, rfl, by decide⟩
  show Decodes [37, 48, 68, 37, 48, 65] [13, 10]
  exact .hex (x := 0) (y := 13) (by decide) (by decide) (.hex (x := 0) (y := 10) (by decide) (by decide) .nil)

/-- **C94 (name, violated).** The name is looked for as a text: with `queryLn=SPARQL` before it, as some libraries send it, the server runs the query `SPARQL`. -/
theorem C94_name_violated : requestOf (browser "queryLn=SPARQL&query=SELECT") = some (.sparql (ascii "SPARQL") true) := by decide +kernel

/-- The hypotheses of `C94_query_partial` hold of a request of a browser. -/
example : requestOf (browser "print=true&query=SELECT+*+WHERE+%7B%3Fx%20%3Fy+%3Fz%7D") = some (.sparql (ascii "SELECT * WHERE {?x ?y ?z}") true) := by decide +kernel
example : requestOf (browser "print=false&query=SELECT+%2A") = some (.sparql (ascii "SELECT *") false) := by decide +kernel

/-! ## C95: the handler gets the whole request -/

/-- **C95 (one read, part).** A request of at most 1024 bytes that is read at once is given to the handler as it is.
Missing: requests that come in parts (`C95_parts_violated`), that are longer (`C95_long_partial`), and other ways to write the length (`C95_case_violated`, `C95_space_violated`). -/
theorem C95_one_partial {s head body : Text} (h : Framed s head body) (hl : s.length ≤ 1024) : Received s s.length s [] ∧ ∀ req s', Received s s.length req s' → req = s ∧ s' = [] := by
  have hlen : s.length = head.length + 4 + body.length := by rw [h.1]; simp [headerEnd]; omega
  have hst := stillToRead_framed h (k := s.length) (by omega)
  have htake : s.take s.length = s := List.take_length
  have hneg : (if 0 < body.length then ((s.length : Int) - 1028) else 0) ≤ 0 := by split <;> omega
  constructor
  · refine ⟨by omega, hl, Nat.le_refl _, _, hst, ?_⟩
    rw [htake, List.drop_length]
    exact .done hneg
  · rintro req s' ⟨_, _, _, n, hn, hr⟩
    rw [hst] at hn
    injection hn with hn
    obtain ⟨h1, h2⟩ := readLoop_stop hr (hn ▸ hneg)
    rw [h1, h2, htake, List.drop_length]
    exact ⟨rfl, rfl⟩

/-- **C95 (long requests, part).** If the headers are in the first 1024 bytes, the first read returns 1024 bytes and there are more, then the handler gets the request except for at most
four bytes at its end, however the other reads go.  Missing: these four bytes. -/
theorem C95_long_partial {s head body : Text} (h : Framed s head body) (hhead : head.length + 4 ≤ 1024) (hl : 1024 < s.length) {req s' : Text} (hr : Received s 1024 req s') :
    req ++ s' = s ∧ s'.length ≤ 4 := by
  have hlen : s.length = head.length + 4 + body.length := by rw [h.1]; simp [headerEnd]; omega
  obtain ⟨_, _, _, n, hn, hr⟩ := hr
  rw [stillToRead_framed h hhead, if_pos (by omega)] at hn
  injection hn with hn
  refine ⟨by rw [readLoop_append hr, List.take_append_drop], ?_⟩
  have := readLoop_least hr
  rw [List.length_drop] at this
  rcases this with g | ⟨g, hn'⟩
  · omega
  · rw [g, List.length_drop]; omega

/-- **C95 (parts, violated).** If a request of at most 1028 bytes is not read at once, then the handler gets what was read first, and the rest is not read: for example the headers
without the body, or 1024 of 1025 bytes. -/
theorem C95_parts_violated {s head body : Text} (h : Framed s head body) (hl : s.length ≤ 1028) {k : Nat} (hhead : head.length + 4 ≤ k) (hk : k < s.length) (hk' : k ≤ 1024) :
    Received s k (s.take k) (s.drop k) ∧ ∀ req s', Received s k req s' → req = s.take k ∧ req ≠ s := by
  have hlen : s.length = head.length + 4 + body.length := by rw [h.1]; simp [headerEnd]; omega
  have hst := stillToRead_framed h hhead
  have hneg : (if 0 < body.length then ((s.length : Int) - 1028) else 0) ≤ 0 := by split <;> omega
  refine ⟨⟨by omega, hk', by omega, _, hst, .done hneg⟩, ?_⟩
  rintro req s' ⟨_, _, _, n, hn, hr⟩
  rw [hst] at hn
  injection hn with hn
  obtain ⟨h1, _⟩ := readLoop_stop hr (hn ▸ hneg)
  refine ⟨h1, fun e => ?_⟩
  have := congrArg List.length (h1.symm.trans e)
  rw [List.length_take] at this
  omega

/-- **C95 (case, violated).** If the header is written in another way, for example `content-length:`, then only what the first read returns is given to the handler. -/
theorem C95_case_violated {s : Text} (h : ∀ i, ¬ Occurs (ascii "Content-Length:") s i) {k : Nat} {req s' : Text} (hr : Received s k req s') : req = s.take k ∧ s' = s.drop k := by
  obtain ⟨_, _, _, n, hn, hr⟩ := hr
  have : bodyLength (s.take k) = some 0 := by
    unfold bodyLength
    rw [find_none fun i hi => h i (by have := Occurs.append (u := s.drop k) hi; rwa [List.take_append_drop] at this)]
  rw [stillToRead, this] at hn
  injection hn with hn
  exact readLoop_stop hr (by rw [← hn, if_neg (by decide)]; decide)

/-- **C95 (space, violated).** Without a space before the number, its first digit is skipped. -/
theorem C95_space_violated : bodyLength (ascii "POST /sparql HTTP/1.1\r\nContent-Length:2000\r\n\r\n") = some 0 ∧ bodyLength (ascii "POST /sparql HTTP/1.1\r\nContent-Length:42\r\n\r\n") = some 2 := by
  decide +kernel

/-- The requests of the client have headers that say how long the body is. -/
theorem C95_post_partial {address : Text} (h13 : 13 ∉ address) (hC : 67 ∉ address) (port : Nat) (body : Text) (hl : (postText (ascii "/sparql") address port formType body).length ≤ 1024) {req s' : Text}
    (hr : Received (postText (ascii "/sparql") address port formType body) (postText (ascii "/sparql") address port formType body).length req s') :
    req = postText (ascii "/sparql") address port formType body ∧ s' = [] :=
  (C95_one_partial (post_framed h13 hC port body) hl).2 req s' hr

/-- The hypotheses hold of a request, also those of `C95_parts_violated`: its headers have 109 bytes. -/
example : Framed (postText (ascii "/sparql") (ascii "localhost") 80 formType (ascii "query=x")) (postStart ++ (postHost (ascii "localhost") 80 ++ (formType ++ (crlf ++ (ascii "Content-Length: " ++ decimal 7))))) (ascii "query=x") ∧
    (postStart ++ (postHost (ascii "localhost") 80 ++ (formType ++ (crlf ++ (ascii "Content-Length: " ++ decimal 7))))).length + 4 ≤ 115 ∧ 115 < (postText (ascii "/sparql") (ascii "localhost") 80 formType (ascii "query=x")).length ∧
    (postText (ascii "/sparql") (ascii "localhost") 80 formType (ascii "query=x")).length ≤ 1028 := by
  refine ⟨post_framed (by decide +kernel) (by decide +kernel) 80 (ascii "query=x"), ?_⟩
  decide +kernel

/-! ## C96: the client gets the whole response -/

/-- **C96 (sending, part).** However much each `send` takes, the client gets the response as it is, once the loop ends.  Missing: calls of `send` that fail (`C96_error_violated`). -/
theorem C96_send_partial {res : Text} {sched : List (Option Nat)} (h : ∀ x ∈ sched, x ≠ none) {out : Text} (ho : sendLoop res 0 sched = some out) : out = res := by
  have := sendLoop_all h ho
  simpa using this

/-- **C96 (end, part).** If each `send` takes at least one byte, then the loop ends. -/
theorem C96_end_partial {res : Text} {sched : List (Option Nat)} (h : ∀ x ∈ sched, ∃ n, x = some n ∧ 1 ≤ n) (hne : sched ≠ []) (hl : res.length ≤ sched.length) : ∃ out, sendLoop res 0 sched = some out :=
  sendLoop_ends h hne (by omega)

/-- **C96 (errors, violated).** If the first `send` fails, for example because of a signal, then the client gets nothing; if a later one fails, then a byte is sent twice. -/
theorem C96_error_violated (c d : Nat) (res : Text) : sendLoop (c :: d :: res) 0 [none] = some [] ∧
    sendLoop (c :: d :: res) 0 [some 1, none, some (res.length + 2)] = some (c :: c :: d :: res) := by
  constructor
  · rfl
  · simp [sendLoop]

example : sendLoop (ascii "HTTP/1.1 200 OK") 0 [some 3, some 1, some 10, some 1] = some (ascii "HTTP/1.1 200 OK") := by decide +kernel

/-! ## C97: the client reads the response -/

/-- **C97 (length, part).** If the headers are in what the first `recv` returns, say that the request succeeded and how long the body is, then `getResponse` returns the headers and the body,
however the body comes.  Missing: headers that do not come at once (`C97_headers_violated`). -/
theorem C97_length_partial (f : Nat) {head rest : Text} {bufs : List Text} (hfirst : First headerEnd head (headerEnd ++ rest)) (hst : OkStatus head)
    (hlength : SaysLength head (rest ++ bufs.flatten).length) (hne : ∀ b ∈ bufs, b ≠ []) :
    getResponse (f + 1) ((head ++ (headerEnd ++ rest)) :: bufs) = .ok head (rest ++ bufs.flatten) :=
  getResponse_length hfirst (badStatus_ok hst) (kindOf_length hlength) hne rfl

/-- **C97 (chunks, part).** If the whole response is in what the first `recv` returns and its body is in chunks, then `getResponse` returns the body.
Missing: responses that come in parts (`C97_chunks_violated`). -/
theorem C97_chunks_partial (f : Nat) {head t data : Text} {bufs : List Text} (hfirst : First headerEnd head (headerEnd ++ t)) (hst : OkStatus head) (hkind : SaysChunked head) (h : Chunks t data) :
    getResponse (f + 1) ((head ++ (headerEnd ++ t)) :: bufs) = .ok head data :=
  getResponse_chunks hfirst (badStatus_ok hst) (kindOf_chunked hkind) h

/-- **C97 (pieces, part).** The same if the headers are in what the first `recv` returns and the rest comes in pieces that do not end in, or just before, the line with the length of a chunk.
Missing: other pieces (`C97_chunks_violated`). -/
theorem C97_pieces_partial (f : Nat) {head rest data : Text} {bufs : List Text} (hfirst : First headerEnd head (headerEnd ++ rest)) (hst : OkStatus head) (hkind : SaysChunked head)
    (h : Pieces (if rest = [] then bufs else rest :: bufs) data) : getResponse (f + 1) ((head ++ (headerEnd ++ rest)) :: bufs) = .ok head data :=
  getResponse_pieces hfirst (badStatus_ok hst) (kindOf_chunked hkind) h

/-- **C97 (headers, violated).** If what the first `recv` returns is the start of a response and does not have the end of its headers, then `getResponse` never ends, whatever comes after it. -/
theorem C97_headers_violated {b : Text} (hst : OkStatus b) (hl : 13 < b.length) (hb : ∀ i, ¬ Occurs headerEnd b i) (bufs : List Text) (f : Nat) : getResponse f (b :: bufs) = .loops := by
  have hbad := badStatus_ok hst
  obtain ⟨c, t, e⟩ := hst
  have : b = 72 :: (ascii "TTP/1." ++ (c :: (bytes " 200 " ++ t))) := by
    rw [e, show bytes "HTTP/1." = 72 :: ascii "TTP/1." by decide +kernel]; rfl
  rw [this] at hb hbad hl ⊢
  exact headerLoop_loops (by decide) hb hbad hl bufs f [] (Or.inl rfl) fun i hi => by
    obtain ⟨u, v, h, _⟩ := hi
    have := congrArg List.length h
    simp [headerEnd] at this

/-- A response in chunks. -/
def chunkedHead : Text := ascii "HTTP/1.1 200 OK\r\nTransfer-Encoding: chunked"

/-- **C97 (chunks, violated).** If the length of a chunk is not in the same buffer as the end of its line, then `getResponse` fails. -/
theorem C97_chunks_violated : Chunks (ascii "3\r\nabc\r\n0\r\n\r\n") (ascii "abc") ∧
    getResponse 1 [chunkedHead ++ (headerEnd ++ ascii "3\r\nabc\r\n"), ascii "0\r\n\r\n"] = .fail ∧ getResponse 1 [chunkedHead ++ (headerEnd ++ ascii "3"), ascii "\r\nabc\r\n0\r\n\r\n"] = .fail := by
  refine ⟨?_, by decide +kernel, by decide +kernel⟩
  show Chunks ([51] ++ ([13, 10] ++ ([97, 98, 99] ++ ([13, 10] ++ [48, 13, 10, 13, 10])))) ([97, 98, 99] ++ [])
  exact .chunk (.one (by decide)) (by simp) (.last (ds := [48]) (t := [13, 10]) (.one (by decide)))

/-- Two chunks in five pieces. -/
example : Pieces [ascii "3\r\n", ascii "a", ascii "bc", ascii "\r\n2\r\nd", ascii "e\r\n0\r\n\r\n"] (ascii "abcde") := by
  show Pieces (([51] ++ ([13, 10] ++ [])) :: ([[97], [98, 99]] ++ (([] ++ ([13, 10] ++ ([50] ++ ([13, 10] ++ [100])))) :: ([] ++ [[101] ++ ([13, 10] ++ [48, 13, 10, 13, 10])]))))
    ([] ++ ([[97], [98, 99]].flatten ++ ([] ++ ([100] ++ (List.flatten [] ++ ([101] ++ []))))))
  exact .cut (.one (by decide)) (by simp) (by simp) (.cut (.one (by decide)) (by simp) (by simp) (.last (ds := [48]) (t := [13, 10]) (.one (by decide))))
example : getResponse 1 [chunkedHead ++ (headerEnd ++ ascii "3\r\n"), ascii "a", ascii "bc", ascii "\r\n2\r\nd", ascii "e\r\n0\r\n\r\n"] = .ok chunkedHead (ascii "abcde") := by decide +kernel

example : getResponse 1 [chunkedHead ++ (headerEnd ++ ascii "3\r\nabc\r\nA\r\n0123456789\r\n0\r\n\r\n")] = .ok chunkedHead (ascii "abc0123456789") := by decide +kernel
example : getResponse 1 [ascii "HTTP/1.1 200 OK\r\nContent-Length: 5\r\n\r\nab", ascii "c", ascii "de"] = .ok (ascii "HTTP/1.1 200 OK\r\nContent-Length: 5") (ascii "abcde") := by decide +kernel

end Trident.Http
