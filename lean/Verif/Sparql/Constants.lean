import Verif.Sparql.Elem
/-!
# Constants of a query

`encode` (rdf3x/src/cts/SemanticAnalysis.cpp) and `TridentLayer::lookup` (src/layers/TridentLayer.cpp) turn the constants of a query into ids.
-/
namespace Trident.Sparql.Parse

open Lex

/-- `Type::ID` as far as `encode` uses it (rdf3x/include/infra/util/Type.hpp). -/
inductive LType
  | uri | literal | customLanguage | customType | string | integer | decimal | double | boolean | date
  deriving DecidableEq, Repr

/-- `DictMgmt::getNumber`: the id of the text of a term. -/
abbrev GetNumber := Text → Option Nat

def str (s : String) : Text := s.toList.map Char.toNat

def xsdString : Text := str "http://www.w3.org/2001/XMLSchema#string"
def xsdInteger : Text := str "http://www.w3.org/2001/XMLSchema#integer"
def xsdDecimal : Text := str "http://www.w3.org/2001/XMLSchema#decimal"
def xsdDouble : Text := str "http://www.w3.org/2001/XMLSchema#double"
def xsdBoolean : Text := str "http://www.w3.org/2001/XMLSchema#boolean"
def xsdDate : Text := str "http://www.w3.org/2001/XMLSchema#date"

/-- The switch over the type (TridentLayer.cpp:51-72). -/
def typeIri : LType → Text
  | .integer => xsdInteger
  | .decimal => xsdDecimal
  | .double => xsdDouble
  | .boolean => xsdBoolean
  | .date => xsdDate
  | _ => []

/-- `TridentLayer::lookup` (TridentLayer.cpp:37-85).  The argument `subType` is not used by the code. -/
def lookup (dict : GetNumber) (text : Text) (ty : LType) : Option Nat :=
  if ty = .uri then dict (60 :: (text ++ [62]))
  else match dict text with
    | some i => some i
    | none =>
      let txt := 34 :: (text ++ [34])
      dict (if typeIri ty ≠ [] then txt ++ [94, 94, 60] ++ typeIri ty ++ [62] else txt)

/-- The type of a literal with a datatype (SemanticAnalysis.cpp:98-116); any other datatype must be a known IRI. -/
def literalType (dict : GetNumber) (dt : Text) : Option LType :=
  if dt = xsdString then some .string
  else if dt = xsdInteger then some .integer
  else if dt = xsdDate then some .date
  else if dt = xsdDecimal then some .decimal
  else if dt = xsdDouble then some .double
  else if dt = xsdBoolean then some .boolean
  else (lookup dict dt .uri).map fun _ => .customType

/-- `encode` (SemanticAnalysis.cpp:69-132): the id and whether it is a constant. -/
def encode (dict : GetNumber) : Elem → Option (Nat × Bool)
  | .var x => some (x, false)
  | .iri v => (lookup dict v .uri).map (·, true)
  | .lit v .none => (lookup dict v .literal).map (·, true)
  | .lit v (.lang t) => (lookup dict t .literal).bind fun _ => (lookup dict v .customLanguage).map (·, true)
  | .lit v (.type dt) => (literalType dict dt).bind fun ty => (lookup dict v ty).map (·, true)

end Trident.Sparql.Parse
