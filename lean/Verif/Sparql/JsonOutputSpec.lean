import Verif.Sparql.QueryTextSpec
import Verif.Http.JsonSpec
/-!
# The document with the answers of a query

The members are those of the "SPARQL 1.1 Query Results JSON Format", with one difference: the value of a literal is the literal as N-Triples write it, with its quotes, its language and
its datatype.
-/
namespace Trident.Sparql.Parse.Spec

open Lex Parse
open Trident.Http.Spec (Doc)

/-- A term. -/
def termDoc : Term → Doc
  | .iri v => .obj [(str "type", .str (str "uri")), (str "value", .str v)]
  | .blank b => .obj [(str "type", .str (str "bnode")), (str "value", .str b)]
  | t => .obj [(str "type", .str (str "literal")), (str "value", .str t.text)]

/-- An answer: a member for each column that has a term. -/
def rowMembers : List Text → List (Option Term) → List (Text × Doc)
  | c :: columns, some t :: r => (c, termDoc t) :: rowMembers columns r
  | _ :: columns, none :: r => rowMembers columns r
  | _, _ => []

/-- The document. -/
def resultDoc (columns : List Text) (rows : List (List (Option Term))) (runtime : Text) : Doc :=
  .obj [(str "head", .obj [(str "vars", .arr (columns.map .str))]), (str "results", .obj [(str "bindings", .arr (rows.map fun r => .obj (rowMembers columns r)))]),
    (str "stats", .obj [(str "runtime", .str runtime), (str "nresults", .str (str (toString rows.length)))])]

end Trident.Sparql.Parse.Spec
