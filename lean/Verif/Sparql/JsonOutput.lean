import Verif.Sparql.QueryText
import Verif.Http.Json
/-!
# The JSON of the answers of a query

Model of the JSON part of /repo/rdf3x/src/rts/ResultsPrinter.cpp and /repo/src/trident/sparql/sparql.cpp, and of the document that the Python module
(/repo/src/python/trident.cpp:858-888), the Java library (/repo/src/trident/java/native/Trident.cpp:60-82) and the server (/repo/src/trident/server/server.cpp) make of it.
-/
namespace Trident.Sparql.Parse

open Lex
open Select (Lib Dict)
open Trident.Http (Json)

/-- `lookupById` (/repo/src/layers/TridentLayer.cpp:86-111) and `CacheEntry::print` (ResultsPrinter.cpp:57-75): what is not an IRI is put in quotes, unless it has one already. -/
def shownTerm (t : Text) : Text :=
  match t with
  | 60 :: s => 60 :: (s.take (t.length - 2) ++ [62])
  | 34 :: s => 34 :: s
  | s => 34 :: (s ++ [34])

/-- A cell (ResultsPrinter.cpp:173-189).  `none` is a register that is not used.  Not modelled: numbers that the query computes, for which memory is read that was never written. -/
def cellJson : Option Text → Option Json
  | none => (Json.new.put (str "type") (str "literal")).bind fun j => j.put (str "value") (str "NULL")
  | some t =>
    let el := shownTerm t
    if el.head? = some 60 ∧ 2 < el.length then (Json.new.put (str "type") (str "uri")).bind fun j => j.put (str "value") ((el.drop 1).take (el.length - 2))
    else (Json.new.put (str "type") (str "literal")).bind fun j => j.put (str "value") el

/-- The loop of `formatJSONRow` (ResultsPrinter.cpp:170-207). -/
def rowJson : List Text → List (Option Text) → Json → Option Json
  | c :: columns, x :: cells, j => (cellJson x).bind fun k => rowJson columns cells (j.addChild c k)
  | _, _, j => some j

/-- `formatJSON` (ResultsPrinter.cpp:211-238); the rows are those of `Limit.output`. -/
def bindingsJson (columns : List Text) : List (List (Option Text)) → Json → Option Json
  | [], j => some j
  | r :: rows, j => (rowJson columns r .new).bind fun k => bindingsJson columns rows (j.push k)

/-- `jsonvars` (sparql.cpp:74-83). -/
def varsJson (columns : List Text) : Json := columns.foldl Json.pushText .new

/-- A number with `std::to_string`. -/
def decimal (n : Nat) : Text := str (toString n)

/-- `jsonstats` (sparql.cpp:128-131). -/
def statsJson (runtime : Text) (rows : Nat) : Option Json := (Json.new.put (str "runtime") runtime).bind fun j => j.put (str "nresults") (decimal rows)

/-- The document (trident.cpp:876-883). -/
def resultJson (vars bindings stats : Json) : Json :=
  ((Json.new.addChild (str "head") (Json.new.addChild (str "vars") vars)).addChild (str "results") (Json.new.addChild (str "bindings") bindings)).addChild (str "stats") stats

/-- The rows that are collected for JSON, as ids (ResultsPrinter.cpp:347-369, 213-236), for a plan of a query without ORDER BY; see `Lines`. -/
inductive JsonRows (S : Scans) (q : PlanGen.Query) (p : PlanGen.Plan) (limit : Option Nat) (offset : Nat) : Modifier → List Tup → Prop
  | all {rows} : PlanGen.ExecOn (S q) q (PlanGen.setOf (q.projection ++ q.order)) p rows →
      JsonRows S q p limit offset .none (Limit.output .expand (Limit.limitOf limit) offset
        (rows.map fun r => (r.1, printed q (PlanGen.cols q (PlanGen.setOf (q.projection ++ q.order)) p) r.2)))
  | distinct {rows} (enum : Nat → List Nat) : (∀ n, (enum n).Perm (List.range n)) → PlanGen.ExecOn (S q) q (PlanGen.setOf (q.projection ++ q.order)) p rows →
      JsonRows S q p limit offset .distinct (Limit.output .reduce (Limit.limitOf limit) offset
        ((Distinct.groupify enum rows).map fun r => (r.1, printed q (PlanGen.cols q (PlanGen.setOf (q.projection ++ q.order)) p) r.2)))

/-- The text that is returned for a query without ORDER BY (`execSPARQLQuery`, sparql.cpp:45-139, and trident.cpp:866-888); `runtime` is the time that it took.  If the text is not
a query, or the query is known to have no answers (sparql.cpp:19-43), then nothing is put in the document. -/
inductive RunJson {F : Type} (E : PlanGen.Est) (P : Lib F) (get : GetNumber) (dict : Dict) (S : Scans) (runtime : Text) (text : Text) : Text → Prop
  | failed {t} : readNamed text = .error .syntax → Http.write (resultJson .new .new .new) = some t → RunJson E P get dict S runtime text t
  | empty {p t} : readNamed text = .ok p → transform P get dict p.1 = .ok none → Http.write (resultJson .new .new .new) = some t → RunJson E P get dict S runtime text t
  | rows {p : Parsed} {names q plan out bindings stats t} : readNamed text = .ok (p, names) → sortKeys p.group p.order = .ok [] → transform P get dict p = .ok (some q) →
      PlanGen.translate E q = some plan → JsonRows S q plan p.limit p.offset p.modifier out →
      bindingsJson (q.projection.map (nameOf names)) (out.map fun t => t.map dict) .new = some bindings → statsJson runtime out.length = some stats →
      Http.write (resultJson (varsJson (q.projection.map (nameOf names))) bindings stats) = some t → RunJson E P get dict S runtime text t

end Trident.Sparql.Parse
