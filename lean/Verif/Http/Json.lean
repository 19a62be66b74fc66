/-
Model of the class `JSON` of /repo/include/trident/utils/json.h and /repo/src/trident/utils/json.cpp: what the server, the Python module and the Java
library return.  A text is the list of its bytes.  An exception is `none`.
-/
namespace Trident.Http

abbrev Text := List Nat

/-- `std::map::insert`: the entries stay sorted by the bytes of the key; a key that is there already keeps its value. -/
def insert {β : Type} (k : Text) (v : β) : List (Text × β) → List (Text × β)
  | [] => [(k, v)]
  | (k', v') :: m => if k = k' then (k', v') :: m else if k < k' then (k, v) :: (k', v') :: m else (k', v') :: insert k v m

/-- The class `JSON` (json.h:15-21): the maps `values` and `children`, the vectors `listvalues` and `listchildren`. -/
inductive Json
  | mk (values : List (Text × Text)) (children : List (Text × Json)) (listvalues : List Text) (listchildren : List Json)

namespace Json

/-- A new object. -/
def new : Json := .mk [] [] [] []

/-- `put` (json.h:24-28). -/
def put : Json → Text → Text → Option Json
  | .mk vs cs ls js, k, v => if k = [] then none else some (.mk (insert k v vs) cs ls js)

/-- `add_child` (json.h:84-86). -/
def addChild : Json → Text → Json → Json
  | .mk vs cs ls js, k, c => .mk vs (insert k c cs) ls js

/-- `push_back` of a string (json.h:88-90). -/
def pushText : Json → Text → Json
  | .mk vs cs ls js, v => .mk vs cs (ls ++ [v]) js

/-- `push_back` of an object (json.h:92-94). -/
def push : Json → Json → Json
  | .mk vs cs ls js, c => .mk vs cs ls (js ++ [c])

end Json

/-- A digit as `std::hex` writes it. -/
def hexDigit (n : Nat) : Nat := if n < 10 then 48 + n else 87 + n

/-- `escape_json` (json.cpp:5-16): `\u`, then the number with four digits.  A `char` is signed, the bytes from 128 are not escaped. -/
def escapeJson : Text → Text
  | [] => []
  | c :: s => (if c = 34 ∨ c = 92 ∨ c ≤ 31 then [92, 117, 48, 48, hexDigit (c / 16), hexDigit (c % 16)] else [c]) ++ escapeJson s

/-- A text in quotes, with escapes. -/
def quoted (s : Text) : Text := 34 :: (escapeJson s ++ [34])

/-- The loop over `listvalues` (json.cpp:41-46). -/
def writeTexts : List Text → Bool → Text
  | [], _ => []
  | s :: l, first => (if first then [] else [44]) ++ quoted s ++ writeTexts l false

/-- The loop over `values` (json.cpp:51-56). -/
def writeValues : List (Text × Text) → Bool → Text
  | [], _ => []
  | (k, v) :: l, first => (if first then [] else [44]) ++ quoted k ++ [32, 58, 32] ++ quoted v ++ writeValues l false

mutual
/-- `JSON::write` (json.cpp:18-65). -/
def write : Json → Option Text
  | .mk vs cs ls js =>
    if !js.isEmpty then
      if !ls.isEmpty || !vs.isEmpty || !cs.isEmpty then none
      else (writeItems js true).map fun t => [91] ++ t ++ [93]
    else if !ls.isEmpty then
      if !vs.isEmpty || !cs.isEmpty then none
      else some ([91] ++ writeTexts ls true ++ [93])
    else (writeChildren cs vs.isEmpty).map fun t => [123] ++ writeValues vs true ++ t ++ [125]
/-- The loop over `listchildren` (json.cpp:27-32). -/
def writeItems : List Json → Bool → Option Text
  | [], _ => some []
  | j :: js, first =>
    match write j, writeItems js false with
    | some a, some b => some ((if first then [] else [44]) ++ a ++ b)
    | _, _ => none
/-- The loop over `children` (json.cpp:57-63). -/
def writeChildren : List (Text × Json) → Bool → Option Text
  | [], _ => some []
  | (k, j) :: cs, first =>
    match write j, writeChildren cs false with
    | some a, some b => some ((if first then [] else [44]) ++ quoted k ++ [32, 58, 32] ++ a ++ b)
    | _, _ => none
end

end Trident.Http
