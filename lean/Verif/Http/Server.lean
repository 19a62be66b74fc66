import Verif.Http.Escape
import Verif.Http.JsonRead
/-!
# Requests and responses

Model of /repo/src/trident/server/server.cpp, /repo/src/trident/utils/httpserver.cpp and /repo/src/trident/utils/httpclient.cpp: how the server reads a request from a connection,
what it takes from it, what it sends, how the client makes a request and reads the response.  An exception is `none`.

Simplified: positions and lengths are natural numbers where the code has `int` and `size_t`; the texts are shorter than 2^31.  A position that is not found is `none`, in the code -1.
-/
namespace Trident.Http

/-- `std::string::find`. -/
def find (p : Text) : Text → Option Nat
  | [] => if p = [] then some 0 else none
  | c :: t => if p.isPrefixOf (c :: t) = true then some 0 else (find p t).map (· + 1)

/-- `std::string::find` from a position on. -/
def findFrom (p t : Text) (i : Nat) : Option Nat := (find p (t.drop i)).map (· + i)

/-- The end of a line. -/
def crlf : Text := [13, 10]

/-- The end of the headers. -/
def blank : Text := [13, 10, 13, 10]

/-- A number with `std::to_string`. -/
def decimal (n : Nat) : Text := ascii (toString n)

/-! ## What the server takes from a request -/

/-- `_getValueParam` (server.cpp:54-67).  A length that is negative becomes very large. -/
def valueParam (req param : Text) : Text :=
  match find param req with
  | none => []
  | some pos =>
    match findFrom [61] req pos, findFrom [38] req pos with
    | none, none => req
    | none, some e => req.take e
    | some s, none => req.drop (s + 1)
    | some s, some e => if s < e then (req.drop (s + 1)).take (e - s - 1) else req.drop (s + 1)

/-- The first `regex_replace` (server.cpp:95-100): there is no group 1, so `$1` is nothing. -/
def plusToSpace (s : Text) : Text := s.map fun c => if c = 43 then 32 else c

/-- The second `regex_replace` (server.cpp:101-105). -/
def dropReturns : Text → Text
  | [] => []
  | [c] => [c]
  | c :: d :: t => if c = 13 ∧ d = 10 then 10 :: dropReturns t else c :: dropReturns (d :: t)

/-- The path (server.cpp:87-88, 150-151); `start` is 5 or 4. -/
def pathOf (req : Text) (start : Nat) : Option Text :=
  if req.length < start then none
  else match find (ascii "HTTP") req with
    | none => some (req.drop start)
    | some pos => if start + 1 ≤ pos then some ((req.drop start).take (pos - (start + 1))) else some (req.drop start)

/-- The type of a form. -/
def formType : Text := ascii "application/x-www-form-urlencoded"

/-- The text from the type of the form on (server.cpp:91, 135). -/
def formOf (req : Text) : Option Text := (find formType req).map fun i => req.drop i

/-- What the server is asked to do. -/
inductive Request
  /-- Run a query; with rows if `json`. -/
  | sparql (query : Text) (json : Bool)
  /-- Give the text of an id. -/
  | lookup (id : Text)
  /-- Give a file. -/
  | page (path : Text)
  /-- Give the main page. -/
  | main
  /-- Answer `Error!`. -/
  | error
deriving DecidableEq

/-- The first part of `processRequest` (server.cpp:79-160). -/
def requestOf (req : Text) : Option Request :=
  if (ascii "POST").isPrefixOf req = true then
    (pathOf req 5).bind fun path =>
      if path = ascii "/sparql" then
        (formOf req).map fun form => .sparql (dropReturns (plusToSpace (unescape (valueParam form (ascii "query"))))) (valueParam form (ascii "print") != ascii "false")
      else if path = ascii "/lookup" then (formOf req).map fun form => .lookup (valueParam form (ascii "id"))
      else some .error
  else if (ascii "GET").isPrefixOf req = true then
    (pathOf req 4).map fun path => if 1 < path.length then .page path else .main
  else some .main

/-- The second part of `processRequest` (server.cpp:161-167). -/
def responseText (json : Bool) (page : Text) : Text :=
  (if json then ascii "HTTP/1.1 200 OK\r\nContent-Type: application/json\nContent-Length: " else ascii "HTTP/1.1 200 OK\r\nContent-Length: ") ++ (decimal page.length ++ (blank ++ page))

/-! ## How the server reads a request -/

/-- The white space before a number. -/
def skipBlanks : Text → Text
  | c :: t => if c = 32 ∨ (9 ≤ c ∧ c ≤ 13) then skipBlanks t else c :: t
  | [] => []

/-- The digits at the start of a text, as a number. -/
def digits (acc : Nat) : Text → Nat
  | c :: t => if 48 ≤ c ∧ c ≤ 57 then digits (acc * 10 + (c - 48)) t else acc
  | [] => acc

/-- `std::stoul`; without numbers that have a sign or that are too large. -/
def stoul (t : Text) : Option Nat :=
  match skipBlanks t with
  | c :: u => if 48 ≤ c ∧ c ≤ 57 then some (digits 0 (c :: u)) else none
  | [] => none

/-- `getMessageBodyLength` (httpserver.cpp:24-35). -/
def bodyLength (req : Text) : Option Nat :=
  match find (ascii "Content-Length:") req with
  | none => some 0
  | some pos =>
    if req.length < pos + 16 then none
    else match findFrom crlf req pos with
      | none => stoul (req.drop (pos + 16))
      | some e => if pos + 16 ≤ e then stoul ((req.drop (pos + 16)).take (e - (pos + 16))) else stoul (req.drop (pos + 16))

/-- How much is still to be read after the first read (httpserver.cpp:60-69).  If the end of the headers is not found, an error is logged and the length is 0. -/
def stillToRead (first : Text) : Option Int :=
  match bodyLength first with
  | none => none
  | some b => some (if 0 < b then (b : Int) - (1024 - (((find blank first).getD 0 : Nat) : Int)) else 0)

/-- The loop (httpserver.cpp:70-74): `ReadLoop s n req req' s'` with the bytes `s` that the client sends, of which `s'` are not read.  Each read returns some of the bytes, at least one and
at most 1024.  If the client sends no more bytes, the loop waits, or never ends if the connection is closed: there is no outcome. -/
inductive ReadLoop : Text → Int → Text → Text → Text → Prop
  | done {s n req} : n ≤ 0 → ReadLoop s n req req s
  | read {s n req req' s'} {k : Nat} : 0 < n → 1 ≤ k → k ≤ 1024 → k ≤ s.length → ReadLoop (s.drop k) (n - (k : Int)) (req ++ s.take k) req' s' → ReadLoop s n req req' s'

/-- `processSocket` up to the handler (httpserver.cpp:48-77): the first read returns `k` bytes of `s`, the handler gets `req`, the bytes `s'` are not read. -/
def Received (s : Text) (k : Nat) (req s' : Text) : Prop :=
  1 ≤ k ∧ k ≤ 1024 ∧ k ≤ s.length ∧ ∃ n, stillToRead (s.take k) = some n ∧ ReadLoop (s.drop k) n (s.take k) req s'

/-! ## How the server sends the response -/

/-- The loop (httpserver.cpp:78-82): what the client gets.  The list has what `send` returns, `none` is -1; `none` as outcome: the list ends before the loop does.
`size` is unsigned: 0 - 1 is larger than every length. -/
def sendLoop (res : Text) : Nat → List (Option Nat) → Option Text
  | _, [] => none
  | size, some n :: l =>
    let n := min n (res.length - size)
    if size + n < res.length then (sendLoop res (size + n) l).map ((res.drop size).take n ++ ·) else some ((res.drop size).take n)
  | size, none :: l => if size = 0 then some [] else sendLoop res (size - 1) l

end Trident.Http
