import Verif.Http.Server
import Verif.Http.WebSpec
/-!
# The pages and the lookups of the server

Model of /repo/src/trident/server/server.cpp:54-213: the whole handler of a request, with the files of the web interface, their cache and the lookup of a term.

Simplified: one thread serves the requests (with more threads the cache is changed without a lock).  The name of the directory is absolute.  The tree of files has no symbolic links.
-/
namespace Trident.Http
open Spec (Files place)

/-- The sign and the digits of a number: the number, and whether there is one. -/
def signed : Text → Option Int
  | 45 :: c :: u => if 48 ≤ c ∧ c ≤ 57 then some (-(digits 0 (c :: u) : Int)) else none
  | 43 :: c :: u => if 48 ≤ c ∧ c ≤ 57 then some (digits 0 (c :: u) : Int) else none
  | c :: u => if 48 ≤ c ∧ c ≤ 57 then some (digits 0 (c :: u) : Int) else none
  | [] => none

/-- `std::stoi`: an exception if there is no number or if it does not fit. -/
def stoi (t : Text) : Option Int := (signed (skipBlanks t)).bind fun n => if -2147483648 ≤ n ∧ n < 2147483648 then some n else none

/-- What `lookup` does. -/
inductive Found
  | throws
  /-- The pointers to the text were never set. -/
  | undefined
  | text (t : Text)
deriving DecidableEq

/-- `TridentServer::lookup` (server.cpp:69-77) with `lookupById` (/repo/src/layers/TridentLayer.cpp:86-111); `get` is `DictMgmt::getText`.  The number becomes `unsigned`.
Simplified: no text in the dictionary is empty or is `<` alone. -/
def lookup (get : Nat → Option Text) (sId : Text) : Found :=
  match stoi sId with
  | none => .throws
  | some n =>
    match get (n % 4294967296).toNat with
    | none => .undefined
    | some t => .text (if t.head? = some 60 then (t.drop 1).take (t.length - 2) else t)

/-- The state of the server (server.h:23-34). -/
structure Web where
  dirhtmlfiles : Text
  webport : Nat
  cachehtml : List (Text × Text)
  isActive : Bool

/-- The first `WEB_PORT` is replaced (server.cpp:203-207). -/
def fillPort (port : Nat) (content : Text) : Text :=
  match find (ascii "WEB_PORT") content with
  | none => content
  | some i => content.take i ++ (decimal port ++ content.drop (i + 8))

/-- `getPage` (server.cpp:189-213). -/
def getPage (files : Files) (w : Web) (f : Text) : Text × Web :=
  match w.cachehtml.find? (·.1 = f) with
  | some e => (e.2, w)
  | none =>
    match files (place (w.dirhtmlfiles ++ (47 :: f))) with
    | some content => (fillPort w.webport content, { w with cachehtml := insert f (fillPort w.webport content) w.cachehtml })
    | none => (ascii "Error! I cannot find the page to show.", w)

/-- What the handler needs besides its state: the results of queries (server.cpp:107-133, `none` is an exception) and the texts of the dictionary. -/
structure Store where
  run : Text → Bool → Option Text
  get : Nat → Option Text

/-- What becomes of a request. -/
inductive Reply
  /-- The response. -/
  | sends (res : Text)
  /-- An exception: the connection is closed (httpserver.cpp:85-90). -/
  | closes
  /-- The behaviour is undefined. -/
  | undefined
deriving DecidableEq

/-- The end of `processRequest` (server.cpp:157-167, 176). -/
def finish (files : Files) (w : Web) (json : Bool) (page : Text) : Reply × Web :=
  if page = [] then
    let r := getPage files w (ascii "/index.html")
    (.sends (responseText json r.1), { r.2 with isActive := false })
  else (.sends (responseText json page), { w with isActive := false })

/-- The page of a lookup (server.cpp:138-142). -/
def lookupPage (value : Text) : Option Text := (Json.new.put (ascii "value") value).bind write

/-- `processRequest` (server.cpp:79-177). -/
def processRequest (files : Files) (store : Store) (w : Web) (req : Text) : Reply × Web :=
  let w := { w with isActive := true }
  match requestOf req with
  | none => (.closes, w)
  | some (.sparql query json) => match store.run query json with
    | none => (.closes, w)
    | some page => finish files w true page
  | some (.lookup id) => match lookup store.get id with
    | .throws => (.closes, w)
    | .undefined => (.undefined, w)
    | .text value => match lookupPage value with
      | none => (.closes, w)
      | some page => finish files w true page
  | some (.page path) =>
    let r := getPage files w path
    finish files r.2 false r.1
  | some .main => finish files w false []
  | some .error => finish files w false (ascii "Error!")

/-- A history: the files at the time of each request, and the request.  After undefined behaviour there are no further replies. -/
def serve (store : Store) : Web → List (Files × Text) → List Reply
  | _, [] => []
  | w, (files, req) :: l =>
    let r := processRequest files store w req
    if r.1 = .undefined then [.undefined] else r.1 :: serve store r.2 l

/-- The state after a history without undefined behaviour. -/
def after (store : Store) (w : Web) (l : List (Files × Text)) : Web := l.foldl (fun w e => (processRequest e.1 store w e.2).2) w

/-- A server that was just started. -/
def started (dir : Text) (port : Nat) : Web := ⟨dir, port, [], false⟩

/-- `stop` returns (server.cpp:45-52): the loop ends if no request is active. -/
def CanStop (w : Web) : Prop := w.isActive = false

end Trident.Http
