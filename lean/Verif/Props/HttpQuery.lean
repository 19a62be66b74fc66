import Verif.Http.ExchangeProofs
import Verif.Props.Http
import Verif.Props.JsonQuery
/-!
# C98: a query over HTTP

`Exchange`: the client of this code base posts a query to the server of this code base and reads the response.
-/
namespace Trident.Http

open Spec (Occurs First headerEnd bytes)

theorem length_decimal {n k : Nat} (hk : 0 < k) (h : n < 10 ^ k) : (decimal n).length ≤ k := by
  rw [decimal_eq, List.length_map]
  exact (Nat.length_toDigits_le_iff (by decide) hk).2 h

/-- **C98 (exchange, part).** If the request has at most 1024 bytes and is read at once, no `send` fails, and the end of the headers is in what the first `recv` returns, then the client gets
what running its query made, however the response is cut into parts.
Missing: other schedules (`C95_parts_violated`, `C96_error_violated`, `C97_headers_violated`), queries with `+` (`C94_plus_violated`) or with ends of lines of forms. -/
theorem C98_exchange_partial {run : Text → Bool → Text → Prop} {address print query : Text} {port : Nat} (haddress : 47 ∉ address ∧ 13 ∉ address ∧ 67 ∉ address) (hprint : 113 ∉ print ∧ 38 ∉ print)
    (hquery : ∀ c ∈ query, c < 256) (hplus : 43 ∉ query) (hlines : ∀ i, ¬ Occurs crlf query i) (hl : (queryRequest address port print query).length ≤ 1024)
    {sched : List (Option Nat)} (hsched : ∀ x ∈ sched, x ≠ none) {b : Text} {bufs : List Text} (hb : ∃ i, Occurs headerEnd b i) {f : Nat} {o : Outcome}
    (h : Exchange run (queryRequest address port print query) (queryRequest address port print query).length sched (b :: bufs) (f + 1) o) :
    ∃ page head, run query (print != ascii "false") page ∧ o = .ok head page := by
  cases h with
  | @done req rest q json page hr hq hrun hsend hbufs =>
    obtain ⟨e, _⟩ := C95_post_partial haddress.2.1 haddress.2.2 port _ hl hr
    rw [e] at hq
    have hq' := hq.symm.trans (C94_post_partial port haddress.1 hprint hquery hplus hlines)
    injection hq' with hq'
    injection hq' with h1 h2
    have hout := C96_send_partial hsched hsend
    obtain ⟨i, hi⟩ := hb
    have hlen : (jsonHead page.length).length + 4 ≤ b.length := by
      have ho : Occurs headerEnd (jsonHead page.length ++ (headerEnd ++ page)) i := by
        rw [← response_eq, ← hout, List.flatten_cons]
        exact Occurs.append hi
      have := (jsonHead_first page.length page).2 i ho
      obtain ⟨u, v, huv, hu⟩ := hi
      have := congrArg List.length huv
      simp only [List.length_append, hu] at this
      have : headerEnd.length = 4 := rfl
      omega
    refine ⟨page, jsonHead page.length, by rw [← h1, ← h2]; exact hrun, ?_⟩
    exact response_read hout hlen (fun x hx e => by have := (hbufs x (List.mem_cons_of_mem _ hx)).1; rw [e] at this; simp at this) f

/-- **C98 (exchange, it is possible).** For each result of the query there is such an exchange. -/
theorem C98_possible_partial {run : Text → Bool → Text → Prop} {address print query : Text} {port : Nat} (haddress : 47 ∉ address ∧ 13 ∉ address ∧ 67 ∉ address) (hprint : 113 ∉ print ∧ 38 ∉ print)
    (hquery : ∀ c ∈ query, c < 256) (hplus : 43 ∉ query) (hlines : ∀ i, ¬ Occurs crlf query i) (hl : (queryRequest address port print query).length ≤ 1024)
    {page : Text} (hrun : run query (print != ascii "false") page) (hpage : page.length < 2 ^ 64) :
    ∃ sched b bufs head, (∀ x ∈ sched, x ≠ none) ∧ (∃ i, Occurs headerEnd b i) ∧
      Exchange run (queryRequest address port print query) (queryRequest address port print query).length sched (b :: bufs) 1 (.ok head page) := by
  obtain ⟨bufs, h1, h2, h3⟩ := parts (responseText true page)
  have hne : responseText true page ≠ [] := by
    rw [response_eq]
    simp [headerEnd]
  obtain ⟨b, l, rfl, hbl⟩ := h3 hne
  have hd : (decimal page.length).length ≤ 20 := length_decimal (by decide) (by omega)
  have hlen : (jsonHead page.length).length + 4 ≤ b.length := by
    have hs : (ascii "HTTP/1.1 200 OK\r\nContent-Type: application/json\nContent-Length: ").length = 64 := by decide +kernel
    rw [hbl, response_eq]
    simp only [List.length_append, show headerEnd.length = 4 from rfl, jsonHead, hs]
    omega
  have hocc : ∃ i, Occurs headerEnd b i := by
    have ho : Occurs headerEnd ((b :: l).flatten) (jsonHead page.length).length := by
      rw [h1, response_eq]
      exact ⟨jsonHead page.length, page, by simp, rfl⟩
    rw [List.flatten_cons] at ho
    exact ⟨_, occurs_left ho hlen⟩
  have hex : Exchange run (queryRequest address port print query) (queryRequest address port print query).length [some (responseText true page).length] (b :: l) 1 (getResponse 1 (b :: l)) := by
    refine .done (C95_one_partial (post_framed haddress.2.1 haddress.2.2 port _) hl).1 (C94_post_partial port haddress.1 hprint hquery hplus hlines) hrun ?_ h2
    rw [sendLoop, h1]
    simp
  rw [response_read h1 hlen (fun x hx e => by have := (h2 x (List.mem_cons_of_mem _ hx)).1; rw [e] at this; simp at this) 0] at hex
  exact ⟨_, b, l, _, by simp, hocc, hex⟩

/-- **C98 (line, violated).** The header of the length does not stand on a line of its own: the line before it ends with a line feed alone. -/
theorem C98_line_violated (page : Text) : ∃ head, responseText true page = head ++ (headerEnd ++ page) ∧ (∀ u v, head ≠ u ++ (crlf ++ (ascii "Content-Length:" ++ v))) ∧
    ∃ u v, head = u ++ (10 :: (ascii "Content-Length:" ++ v)) := by
  refine ⟨jsonHead page.length, response_eq page, fun u v h => ?_, ascii "HTTP/1.1 200 OK\r\nContent-Type: application/json", 32 :: decimal page.length, ?_⟩
  · have hocc : Occurs (crlf ++ ascii "Content-Length:") (jsonHead page.length) u.length := ⟨u, v, by rw [h]; simp, rfl⟩
    have h0 := byte_of_occurs hocc (show (crlf ++ ascii "Content-Length:")[0]? = some 13 by decide +kernel)
    have h10 := byte_of_occurs hocc (show (crlf ++ ascii "Content-Length:")[10]? = some 76 by decide +kernel)
    have hs : (ascii "HTTP/1.1 200 OK\r\nContent-Type: application/json\nContent-Length: ").length = 64 := by decide +kernel
    rw [Nat.add_zero] at h0
    unfold jsonHead at h0 h10
    rcases Nat.lt_or_ge u.length 64 with g | g
    · rw [List.getElem?_append_left (by omega)] at h0
      have key : ∀ j, j < 64 → (ascii "HTTP/1.1 200 OK\r\nContent-Type: application/json\nContent-Length: ")[j]? = some 13 → j = 15 := by decide +kernel
      rw [key _ g h0, List.getElem?_append_left (by omega)] at h10
      exact absurd h10 (by decide +kernel)
    · rw [List.getElem?_append_right (by omega)] at h0
      have := decimal_digit (List.mem_of_getElem? h0)
      omega
  · have : ascii "HTTP/1.1 200 OK\r\nContent-Type: application/json\nContent-Length: " = ascii "HTTP/1.1 200 OK\r\nContent-Type: application/json" ++ (10 :: (ascii "Content-Length:" ++ [32])) := by decide +kernel
    unfold jsonHead
    rw [this]
    simp

end Trident.Http

namespace Trident.Sparql.Parse

open Lex Spec
open Select (Expr Lib Dict)
open Trident.Http.Spec (IsJson Same Occurs headerEnd)
open Trident.Http (Exchange queryRequest Outcome crlf ascii)

variable {F : Type} {P : Lib F} {get : GetNumber} {dict : Dict} {graph : List (Term × Term × Term)} {db : List PlanGen.Triple}

/-- How the server runs a query (server.cpp:107-133).  Not modelled: `print=false`, with which there are no rows. -/
def Handler (E : PlanGen.Est) (P : Lib F) (get : GetNumber) (dict : Dict) (S : Scans) (runtime : Text) (query : Text) (json : Bool) (page : Text) : Prop :=
  json = true ∧ RunJson E P get dict S runtime query page

/-- **C98 (query, part).** The client posts the text of a query; the response is JSON, and the document that it stands for has the answers of the query, those after OFFSET.
Missing: as for `C92_select_partial` and `Http.C98_exchange_partial`. -/
theorem C98_query_partial (E : PlanGen.Est) (hE : E.Fair) (hst : Stored P get dict) (hr : ReadsIntegers P) (hload : Loaded get graph db) (W : QueryWords) (q : SQuery)
    {slice : List Tok} {text : Text} (hprefixes : W.prefixes.length = q.prefixes.length ∧ (∀ p ∈ q.prefixes, 92 ∉ p.2) ∧ (q.prefixes.map (·.1)).Nodup)
    (hgroup : GroupOk P get graph q.prefixes q.pat) (htied : q.Tied) (hslice : SliceToks W slice q.limit q.offset) (hnames : ∀ l, q.columns = .names l → l ≠ [] ∧ ∀ x ∈ l, x ∈ q.pat.vars)
    (hdistinct : q.distinct = false) (hnolimit : q.limit = none) (htext : Written text (q.toks W slice)) (runtime : Text)
    {address : Text} {port : Nat} (haddress : 47 ∉ address ∧ 13 ∉ address ∧ 67 ∉ address) (hbytes : ∀ c ∈ text, c < 256) (hplus : 43 ∉ text) (hlines : ∀ i, ¬ Occurs crlf text i)
    (hl : (queryRequest address port (ascii "true") text).length ≤ 1024) :
    ∃ columns, q.Shows columns ∧ (columns ≠ [] → columns.Nodup → (answers P q.prefixes graph q.pat columns).length < 2 ^ 32 → q.offset < (answers P q.prefixes graph q.pat columns).length →
      (∀ r ∈ answers P q.prefixes graph q.pat columns, ∀ t, some t ∈ r → Term.Shown t) →
      ∀ (sched : List (Option Nat)) (b : Text) (bufs : List Text) (f : Nat) (o : Outcome), (∀ x ∈ sched, x ≠ none) → (∃ i, Occurs headerEnd b i) →
        Exchange (Handler E P get dict (PlanGen.ScanRows db) runtime) (queryRequest address port (ascii "true") text) (queryRequest address port (ascii "true") text).length sched (b :: bufs) (f + 1) o →
        ∃ (head out : Text) (l : List (List (Option Term))) (d : Http.Spec.Doc), o = .ok head out ∧ l.Perm (answers P q.prefixes graph q.pat columns) ∧ IsJson out d ∧ Same (resultDoc columns (l.drop q.offset) runtime) d) := by
  obtain ⟨columns, hc, hrun⟩ := C92_select_partial E hE hst hr hload W q hprefixes hgroup htied hslice hnames hdistinct hnolimit htext runtime
  refine ⟨columns, hc, fun h1 h2 h3 h4 h5 sched b bufs f o hs hb hex => ?_⟩
  obtain ⟨page, head, ⟨_, hp⟩, ho⟩ := Http.C98_exchange_partial haddress (by decide +kernel) hbytes hplus hlines hl hs hb hex
  obtain ⟨l, d, h6, h7, h8⟩ := (hrun h1 h2 h3 h4 h5).2 page hp
  exact ⟨head, page, l, d, ho, h6, h7, h8⟩

/-- The text of `query8`. -/
def text8 : Text := printAll (query8.toks capsQuery [ident (str "OFFSET"), int1 "1"])

/-- The query of the example is posted and the client gets a document with one of its two answers. -/
example : ∃ out, RunJson PlanGen.exampleEst intLib (ofTerms cells2) (dictOf cells2) (PlanGen.ScanRows db2) (str "0.01") text8 out ∧ (out.length < 2 ^ 64 → ∃ sched b bufs head r d, Exchange (Handler PlanGen.exampleEst intLib (ofTerms cells2) (dictOf cells2) (PlanGen.ScanRows db2) (str "0.01")) (queryRequest (ascii "localhost") 8080 (ascii "true") text8)
      (queryRequest (ascii "localhost") 8080 (ascii "true") text8).length sched (b :: bufs) 1 (.ok head out) ∧
    IsJson out d ∧ Same (resultDoc [str "s", str "v"] [r] (str "0.01")) d ∧ r ∈ answers intLib preE graph2 pat4 [str "s", str "v"]) := by
  have hno : ∀ i, ¬ Occurs crlf text8 i := fun i hi => by
    have := List.mem_of_getElem? (Http.byte_of_occurs hi (show crlf[0]? = some 13 from rfl))
    exact absurd this (by decide +kernel)
  have hl : (queryRequest (ascii "localhost") 8080 (ascii "true") text8).length ≤ 1024 := by decide +kernel
  have hb : ∀ c ∈ text8, c < 256 := by decide +kernel
  have hp : 43 ∉ text8 := by decide +kernel
  have ha : 47 ∉ ascii "localhost" ∧ 13 ∉ ascii "localhost" ∧ 67 ∉ ascii "localhost" := by decide +kernel
  obtain ⟨columns, hc, hrun⟩ := C98_query_partial PlanGen.exampleEst fairEst cells2_stored intLib_reads loaded2 capsQuery query8 ⟨rfl, by decide +kernel, by decide⟩ pat4_group tied4 slice8 names4 rfl rfl
    (written_print (query8.toks capsQuery _) (by decide +kernel)) (str "0.01") ha hb hp hno hl
  have hc : columns = [str "s", str "v"] := hc
  subst hc
  have h2 : (answers intLib preE graph2 pat4 [str "s", str "v"]).length = 2 := by decide +kernel
  obtain ⟨columns', hc', hrun'⟩ := C92_select_partial PlanGen.exampleEst fairEst cells2_stored intLib_reads loaded2 capsQuery query8 ⟨rfl, by decide +kernel, by decide⟩ pat4_group tied4 slice8 names4 rfl rfl
    (written_print (query8.toks capsQuery _) (by decide +kernel)) (str "0.01")
  have hc' : columns' = [str "s", str "v"] := hc'
  subst hc'
  have g1 : (answers intLib preE graph2 pat4 [str "s", str "v"]).length < 2 ^ 32 := by rw [h2]; decide
  have g2 : 1 < (answers intLib preE graph2 pat4 [str "s", str "v"]).length := by rw [h2]; decide
  obtain ⟨⟨out, ho⟩, _⟩ := hrun' (by simp) (by decide +kernel) g1 g2 (shown_all (by decide +kernel))
  refine ⟨out, ho, fun hout => ?_⟩
  obtain ⟨sched, b, bufs, head, hs, hbo, hex⟩ := Http.C98_possible_partial (run := Handler PlanGen.exampleEst intLib (ofTerms cells2) (dictOf cells2) (PlanGen.ScanRows db2) (str "0.01")) (print := ascii "true") (port := 8080)
    ha (by decide +kernel) hb hp hno hl (page := out) ⟨by decide +kernel, ho⟩ hout
  obtain ⟨head', out', l, d, h6, h7, h8, h9⟩ := hrun (by simp) (by decide +kernel) g1 g2 (shown_all (by decide +kernel)) sched b bufs 0 _ hs hbo hex
  injection h6 with h6 h6'
  subst h6'
  have hlen : l.length = 2 := h7.length_eq.trans h2
  match l, hlen with
  | [a, b'], _ => exact ⟨sched, b, bufs, head, b', d, hex, h8, h9, h7.mem_iff.1 (by simp)⟩

end Trident.Sparql.Parse
