import Verif.Http.Server
/-!
# The client

Model of `HttpClient::post` and `HttpClient::getResponse` of /repo/src/trident/utils/httpclient.cpp.
-/
namespace Trident.Http

/-- The parameters of a request (httpclient.cpp:311-325); they are sorted by their names. -/
def formText : List (Text × Text) → Text
  | [] => []
  | [(k, v)] => if k = [] then v else k ++ (61 :: v)
  | (k, v) :: l => (if k = [] then v else k ++ (61 :: v)) ++ (38 :: formText l)

/-- The request (httpclient.cpp:327-331, 340-344). -/
def postText (path address : Text) (port : Nat) (type body : Text) : Text :=
  ascii "POST " ++ (path ++ (ascii " HTTP/1.1\r\nHost: " ++ (address ++ (58 :: (decimal port ++ (crlf ++ (ascii "Content-Type: " ++ (type ++ (crlf ++
    (ascii "Content-Length: " ++ (decimal body.length ++ (blank ++ body))))))))))))

/-- What `getResponse` does. -/
inductive Outcome
  /-- It returns true. -/
  | ok (headers response : Text)
  /-- It returns false. -/
  | fail
  /-- An exception. -/
  | throws
  /-- It reads outside of the buffer. -/
  | undefined
  /-- It never ends. -/
  | loops
deriving DecidableEq

/-- A number in hexadecimal, as `std::hex` reads it. -/
def hexDigits (acc : Nat) : Text → Nat
  | c :: t => if isXDigit c = true then hexDigits (acc * 16 + digitOf c) t else acc
  | [] => acc

/-- What is known after the bytes of a buffer. -/
inductive Inner
  | more (size cur : Nat) (response : Text)
  | done (response : Text)
  | fail

/-- Without the end of a line at the start (httpclient.cpp:206-213). -/
def skipLine (t : Text) : Text :=
  let t := if t.head? = some 13 then t.drop 1 else t
  if t.head? = some 10 then t.drop 1 else t

/-- The loop over the bytes of the buffer (httpclient.cpp:193-231); `size` is the length of the chunk and `cur` how much of it was read.  The first argument bounds the steps. -/
def inner : Nat → Text → Nat → Nat → Text → Inner
  | 0, _, size, cur, response => .more size cur response
  | _, [], size, cur, response => .more size cur response
  | f + 1, c :: buf, size, cur, response =>
    if cur < size then
      let k := min (size - cur) (c :: buf).length
      inner f ((c :: buf).drop k) size (cur + k) (response ++ (c :: buf).take k)
    else
      let rest := skipLine (c :: buf)
      match find crlf rest with
      | none => .fail
      | some e =>
        let n := hexDigits 0 (rest.take e)
        if n = 0 then .done response else inner f (rest.drop (e + 2)) n 0 response

/-- The loop while the body is read (httpclient.cpp:181-236), over what `recv` returns until the connection ends. -/
def bodyLoop (headers : Text) (chunked : Bool) : List Text → Nat → Nat → Text → Outcome
  | [], _, _, response => .ok headers response
  | b :: bufs, size, cur, response =>
    match inner b.length b size cur response with
    | .fail => .fail
    | .done r => .ok headers r
    | .more size cur r => if chunked = false ∧ cur = size then .ok headers r else bodyLoop headers chunked bufs size cur r

/-- `tolower`. -/
def lower (t : Text) : Text := t.map fun c => if 65 ≤ c ∧ c ≤ 90 then c + 32 else c

/-- How the end of the body is known. -/
inductive Kind
  | length (n : Nat)
  | chunked
  | unknown
deriving DecidableEq

/-- The headers are read for it (httpclient.cpp:264-286). -/
def kindOf (headers : Text) : Option Kind :=
  let lheaders := lower headers
  match find (ascii "content-length:") lheaders with
  | some idx =>
    if lheaders.length < idx + 16 then none
    else
      let line := lheaders.drop (idx + 16)
      some (.length ((stoul (line.take ((find crlf line).getD line.length))).getD 0))
  | none => if find (ascii "transfer-encoding: chunked") lheaders ≠ none then some .chunked else some .unknown

/-- The test of the first line (httpclient.cpp:248-262). -/
def badStatus (headers : Text) : Bool := 13 < headers.length && (!(ascii "HTTP/1").isPrefixOf headers || (headers.drop 9).take 3 != ascii "200")

/-- What is left in the buffer comes before what `recv` returns. -/
def withRest (rest : Text) (bufs : List Text) : List Text := if rest = [] then bufs else rest :: bufs

/-- The loop until the headers are read (httpclient.cpp:181-287); `b` is what the first `recv` returned and `bufs` what it returns after that, each time at least one byte and at most 1024,
until the connection ends.  If the end of the headers is not found, the buffer is not emptied and is added to the headers once more.  If the end of the headers is not in the buffer at the
position that it has in the headers, then the number of bytes in the buffer becomes very large.  The first argument bounds the turns. -/
def headerLoop : Nat → Text → Text → List Text → Outcome
  | 0, _, _, _ => .loops
  | f + 1, headers, b, bufs =>
    let all := headers ++ b
    match find blank all with
    | none => if badStatus all = true then .fail else headerLoop f all b bufs
    | some idx =>
      if badStatus (all.take idx) = true then .fail
      else match kindOf (all.take idx) with
        | none => .throws
        | some .unknown => if b.length = idx + 4 ∧ bufs = [] then .ok (all.take idx) [] else .loops
        | some (.length n) => if b.length < idx + 4 then .undefined else bodyLoop (all.take idx) false (withRest (b.drop (idx + 4)) bufs) n 0 []
        | some .chunked => if b.length < idx + 4 then .undefined else bodyLoop (all.take idx) true (withRest (b.drop (idx + 4)) bufs) 0 0 []

/-- `getResponse` (httpclient.cpp:158-290), with what `recv` returns until the connection ends; `loops` if it has not ended after `fuel` turns of the loop for the headers.
Simplified: the request is sent with one `send`. -/
def getResponse (fuel : Nat) : List Text → Outcome
  | [] => .ok [] []
  | b :: bufs => headerLoop fuel [] b bufs

end Trident.Http
