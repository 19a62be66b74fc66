import Verif.Http.Client
/-!
# A query over HTTP

The client (`HttpClient::post`, /repo/src/trident/utils/httpclient.cpp:305-332) sends a query to the server (`HttpServer::processSocket`, /repo/src/trident/utils/httpserver.cpp:37-92, with the handler
`TridentServer::processRequest`, /repo/src/trident/server/server.cpp:79-177) and reads the response.
-/
namespace Trident.Http

/-- The request of the client for a query, with the parameter `print`. -/
def queryRequest (address : Text) (port : Nat) (print query : Text) : Text :=
  postText (ascii "/sparql") address port formType (formText [(ascii "print", print), (ascii "query", escape query)])

/-- The headers of a response with JSON (server.cpp:162-163). -/
def jsonHead (n : Nat) : Text := ascii "HTTP/1.1 200 OK\r\nContent-Type: application/json\nContent-Length: " ++ decimal n

/-- `run q json page`: running the query `q` makes `page` (server.cpp:107-133).  The server's first read returns `k` bytes, its calls of `send` return `sched`, the calls of `recv` of the
client return `bufs`, each at least one byte and at most 1024. -/
inductive Exchange (run : Text → Bool → Text → Prop) (request : Text) (k : Nat) (sched : List (Option Nat)) (bufs : List Text) (fuel : Nat) : Outcome → Prop
  | done {req rest query json page} : Received request k req rest → requestOf req = some (.sparql query json) → run query json page →
      sendLoop (responseText true page) 0 sched = some bufs.flatten → (∀ b ∈ bufs, 1 ≤ b.length ∧ b.length ≤ 1024) →
      Exchange run request k sched bufs fuel (getResponse fuel bufs)

end Trident.Http
