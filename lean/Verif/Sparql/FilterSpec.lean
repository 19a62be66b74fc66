import Verif.Sparql.ParserSpec
import Verif.Sparql.Select
import Verif.Props.Constants
/-!
# Which solutions a condition keeps

`SCond.truth` is the value of a condition for a solution, by the operator table of SPARQL 1.1 (section 17.3), for RDF terms and names of variables.
-/
namespace Trident.Sparql.Parse.Spec

open Lex Parse
open Select (Lib)

/-- A number that is written with digits. -/
def naturalOf (s : Text) : Option Int :=
  if s ≠ [] ∧ ∀ d ∈ s, 48 ≤ d ∧ d ≤ 57 then some (s.foldl (fun (n : Int) (d : Nat) => 10 * n + ((d : Int) - 48)) 0) else none

/-- The integer of a text, if it is between -2^63 and 2^63 - 1. -/
def integerOf (s : Text) : Option Int :=
  let n := match s with
    | 43 :: s => naturalOf s
    | 45 :: s => (naturalOf s).map (- ·)
    | s => naturalOf s
  n.filter fun n => decide (-2 ^ 63 ≤ n ∧ n < 2 ^ 63)

def xsdFloat : Text := str "http://www.w3.org/2001/XMLSchema#float"
def xsdDateTime : Text := str "http://www.w3.org/2001/XMLSchema#dateTime"

/-- The value of a literal: an integer, a floating point number, a point of time (a date or not) or a string. -/
inductive Value (F : Type)
  | int (n : Int)
  | float (f : F)
  | time (date : Bool) (n : Int)
  | text (s : Text)

/-- The value of a term, for some types.  Floating point numbers and times are read by the library. -/
def valueOf {F : Type} (P : Lib F) : Term → Option (Value F)
  | .plain v => some (.text v)
  | .typed v dt =>
    if dt = xsdInteger then (integerOf v).map .int
    else if dt = xsdDouble ∨ dt = xsdFloat then (P.getDouble (Term.typed v dt).text).map .float
    else if dt = xsdDate ∨ dt = xsdDateTime then (P.getTime (Term.typed v dt).text).map (.time (decide (dt = xsdDate)))
    else none
  | _ => none

/-- Two strings are the same, or differ inside, or what one has more than the other begins with a sign after the quote. -/
def apart : Text → Text → Bool
  | [], [] => true
  | [], c :: _ => decide (34 < c)
  | c :: _, [] => decide (34 < c)
  | a :: s, b :: t => a != b || apart s t

/-- `x < y`.  Values of different kinds are not comparable; strings are treated if `apart`. -/
def Value.less {F : Type} (P : Lib F) : Value F → Value F → Option Bool
  | .int a, .int b => some (decide (a < b))
  | .int a, .float b => some (P.ltF (P.ofInt a) b)
  | .float a, .int b => some (P.ltF a (P.ofInt b))
  | .float a, .float b => some (P.ltF a b)
  | .time d a, .time e b => if d = e then some (decide (a < b)) else none
  | .text s, .text t => if apart s t then some (decide (s < t)) else none
  | _, _ => none

/-- `x ≤ y`.  For floating point numbers it is treated if one is less than the other. -/
def Value.atMost {F : Type} (P : Lib F) (x y : Value F) : Option Bool :=
  match x, y with
  | .int a, .int b => some (decide (a ≤ b))
  | .time d a, .time e b => if d = e then some (decide (a ≤ b)) else none
  | .text s, .text t => if apart s t then some (!decide (t < s)) else none
  | x, y => if x.less P y = some true ∧ y.less P x = some false then some true else if y.less P x = some true then some false else none

/-- `s < t` -/
def less {F : Type} (P : Lib F) (s t : Term) : Option Bool := do (← valueOf P s).less P (← valueOf P t)

/-- `s ≤ t` -/
def atMost {F : Type} (P : Lib F) (s t : Term) : Option Bool := do (← valueOf P s).atMost P (← valueOf P t)

def isFloat : Term → Bool
  | .typed _ dt => decide (dt = xsdDouble ∨ dt = xsdFloat)
  | _ => false

def isLiteral : Term → Bool
  | .plain _ | .lang .. | .typed .. => true
  | _ => false

/-- `s = t`: true for the same term (but NaN is not equal to itself).  Of two different terms, of which not both are literals, or which are strings, it is false.
For other literals it is treated if one is less than the other. -/
def equals {F : Type} (P : Lib F) (s t : Term) : Option Bool :=
  if s = t then if isFloat s then none else some true
  else if isLiteral s && isLiteral t then
    match s, t with
    | .plain _, .plain _ => some false
    | s, t => if less P s t = some true ∨ less P t s = some true then some false else none
  else some false

/-- The term of a constant. -/
def SCond.constant (pre : List (Text × Text)) : SCond → Option Term
  | .elem e => denotes (e.meaning pre fun _ => 0)
  | .int t => some (.typed t xsdInteger)
  | .dec t => some (.typed t xsdDecimal)
  | .bool b => some (.typed (if b then tTrue else tFalse) xsdBoolean)
  | _ => none

/-- The term of a variable or a constant; `σ` is the solution. -/
def SCond.term (pre : List (Text × Text)) (σ : Text → Option Term) : SCond → Option Term
  | .elem (.var x) => σ x
  | c => c.constant pre

/-- The value of a condition for a solution.  There is no answer for conditions that are not treated. -/
def SCond.truth {F : Type} (P : Lib F) (pre : List (Text × Text)) (σ : Text → Option Term) : SCond → Option Bool
  | .bin .or a b => do let x ← a.truth P pre σ; let y ← b.truth P pre σ; some (x || y)
  | .bin .and a b => do let x ← a.truth P pre σ; let y ← b.truth P pre σ; some (x && y)
  | .un .not a => (a.truth P pre σ).map (!·)
  | .bin .eq a b => do equals P (← a.term pre σ) (← b.term pre σ)
  | .bin .ne a b => do let x ← equals P (← a.term pre σ) (← b.term pre σ); some (!x)
  | .bin .sameTerm a b => do let s ← a.term pre σ; let t ← b.term pre σ; some (decide (s = t))
  | .bin .lt a b => do less P (← a.term pre σ) (← b.term pre σ)
  | .bin .gt a b => do less P (← b.term pre σ) (← a.term pre σ)
  | .bin .le a b => do atMost P (← a.term pre σ) (← b.term pre σ)
  | .bin .ge a b => do atMost P (← b.term pre σ) (← a.term pre σ)
  | .un .isIri a => do match ← a.term pre σ with | .iri _ => some true | _ => some false
  | .un .isLiteral a => do match ← a.term pre σ with | .blank _ => none | .iri _ => some false | _ => some true
  | .bound x => (σ x).map fun _ => true
  | .isIn a args => do member P pre σ (← a.term pre σ) args
  | _ => none
where
  /-- One of the arguments of IN is equal. -/
  member {F : Type} (P : Lib F) (pre : List (Text × Text)) (σ : Text → Option Term) (s : Term) : SCond → Option Bool
    | .nil => some false
    | .arg a rest => do let x ← equals P s (← a.term pre σ); let y ← member P pre σ s rest; some (x || y)
    | _ => none

/-- The constants of a condition. -/
def SCond.constants (pre : List (Text × Text)) (c : SCond) : List Term :=
  match c with
  | .un _ a => a.constants pre
  | .bin _ a b | .isIn a b | .arg a b => a.constants pre ++ b.constants pre
  | c => (c.constant pre).toList

/-- The constants that must be stored: those of `<`, `>`, `<=`, `>=` and of tests, and the left one of two that are compared with `=` or `IN`. -/
def SCond.needed (pre : List (Text × Text)) : SCond → List Term
  | .un .not a => a.needed pre
  | .un _ a => (a.constant pre).toList
  | .bin op a b =>
    match op with
    | .or | .and => a.needed pre ++ b.needed pre
    | .eq | .ne | .sameTerm => if (b.constant pre).isSome then (a.constant pre).toList else []
    | _ => (a.constant pre).toList ++ (b.constant pre).toList
  | .isIn a _ => (a.constant pre).toList
  | _ => []

/-- The variable occurs in a triple pattern of the group, of an OPTIONAL in it, or of an alternative of a UNION in it. -/
inductive Occurs (x : Nat) : Group → Prop
  | pattern {ps : List Triple} {os : List Group} {us : List (List Group)} {ms : List Group} {vs : List (List Nat × List Elem)} {fs : List Cond} {s p o : Elem} :
      (s, p, o) ∈ ps → s = .var x ∨ p = .var x ∨ o = .var x → Occurs x (.mk ps os us ms vs fs)
  | optional {ps : List Triple} {os : List Group} {us : List (List Group)} {ms : List Group} {vs : List (List Nat × List Elem)} {fs : List Cond} {g : Group} :
      g ∈ os → Occurs x g → Occurs x (.mk ps os us ms vs fs)
  | union {ps : List Triple} {os : List Group} {us : List (List Group)} {ms : List Group} {vs : List (List Nat × List Elem)} {fs : List Cond} {u : List Group} {g : Group} :
      u ∈ us → g ∈ u → Occurs x g → Occurs x (.mk ps os us ms vs fs)

end Trident.Sparql.Parse.Spec
