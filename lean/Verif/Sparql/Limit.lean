import Verif.Sparql.Op
/-!
# LIMIT and OFFSET

Model of /repo/rdf3x/src/rts/DuplLimit.cpp (for subqueries) and of the parts of /repo/rdf3x/src/rts/ResultsPrinter.cpp that choose the rows of a query.
How the values of a row become text is not modelled.
-/
namespace Trident.Sparql.Limit

/-! ## Subqueries -/

/-- The members of a `DuplLimit`: the remaining rows of the input, the row in the registers, `entryCount`, `currentCount`, `observedOutputCardinality`. -/
structure DL where
  input : List Row
  cur : Tup
  entryCount : Nat
  currentCount : Nat
  observed : Nat

/-- `next` (DuplLimit.cpp:45-61).  `dup` is `duplicateHandling == Duplicates`. -/
def next (dup : Bool) (limit : Nat) (s : DL) : Step DL :=
  if s.observed < limit then
    if s.currentCount < s.entryCount ∧ dup = true then
      .emit (1, s.cur) { s with currentCount := s.currentCount + 1, observed := s.observed + 1 }
    else match s.input with
      | [] => .stop
      | r :: rs => .emit (1, r.2) { input := rs, cur := r.2, entryCount := r.1, currentCount := 1, observed := s.observed + 1 }
  else .stop

/-- The loop over the offset (DuplLimit.cpp:28-34); `none` if the input ends. -/
def skip (dup : Bool) (limit : Nat) : Nat → DL → Option DL
  | 0, s => some s
  | o + 1, s =>
    match next dup limit s with
    | .emit _ s' => skip dup limit o { s' with observed := s'.observed - 1 }
    | _ => none

/-- `first` (DuplLimit.cpp:20-43), for a new operator (DuplLimit.cpp:10-16). -/
def first (dup : Bool) (limit offset : Nat) (input : List Row) : Step DL :=
  if 0 < limit then
    match input with
    | [] => .stop
    | r :: rs =>
      match skip dup limit offset { input := rs, cur := r.2, entryCount := r.1, currentCount := 1, observed := 0 } with
      | none => .stop
      | some s => .emit (1, s.cur) { s with observed := s.observed + 1 }
  else .stop

/-- The rows that are returned. -/
def Returns (dup : Bool) (limit offset : Nat) (input : List Row) (out : List Row) : Prop :=
  match first dup limit offset input with
  | .stop => out = []
  | .go _ => False
  | .emit r s => ∃ l, Runs (next dup limit) s l ∧ out = r :: l

/-! ## Queries -/

/-- The limit without a LIMIT clause: `~0u` (/repo/rdf3x/src/cts/SPARQLParser.cpp:118, /repo/rdf3x/src/cts/QueryGraph.cpp:163), and the one of a clause
(SPARQLParser.cpp:1754; 0 is an error, 1755-1756). -/
def limitOf : Option Nat → Nat
  | none => 0xFFFFFFFF
  | some n => n

/-- `ResultsPrinter::DuplicateHandling` -/
inductive Handling | reduce | expand | count | show
  deriving DecidableEq

/-- The inner loop of the output (ResultsPrinter.cpp:333-339): the number `nrows` afterwards. -/
def copies (limit : Nat) : Nat → Nat → Nat
  | 0, nrows => nrows
  | c + 1, nrows => if limit ≤ nrows + 1 then nrows + 1 else copies limit c (nrows + 1)

/-- The output without DISTINCT (ResultsPrinter.cpp:296-345): the rows that are written.  `o` is the rest of the offset. -/
def print (limit : Nat) : List Row → Nat → Nat → List Tup
  | [], _, _ => []
  | r :: rs, o, nrows =>
    if 0 < o ∧ r.1 ≤ o then print limit rs (o - r.1) nrows
    else
      let n := copies limit (r.1 - o) nrows
      List.replicate (n - nrows) r.2 ++ if limit ≤ n then [] else print limit rs 0 n

/-- Counting the rows (ResultsPrinter.cpp:269-288): the number that is written. -/
def count (limit : Nat) : List Row → Nat → Nat → Nat
  | [], _, nrows => nrows
  | r :: rs, o, nrows =>
    let (o', n) := if 0 < o then (if r.1 ≤ o then (o - r.1, nrows) else (0, min (nrows + (r.1 - o)) limit)) else (0, min (nrows + r.1) limit)
    if n < limit then count limit rs o' n else n

/-- Collecting the rows (ResultsPrinter.cpp:347-369). -/
def collect (h : Handling) (limit : Nat) : List Row → Nat → Nat → List Row
  | [], _, _ => []
  | r :: rs, o, entries =>
    if r.1 < (if h = .show then 2 else 1) then collect h limit rs o entries
    else if 0 < o ∧ r.1 ≤ o then collect h limit rs (o - r.1) entries
    else (r.1 - o, r.2) :: if limit ≤ entries + 1 then [] else collect h limit rs 0 (entries + 1)

/-- The rows that are written from the collected ones (ResultsPrinter.cpp:213-236 for JSON, 445-471 for text). -/
def written (h : Handling) (l : List Row) : List Tup := if h = .expand then expand l else l.map (·.2)

/-- The output of the rows of a query: as JSON, or as text with DISTINCT. -/
def output (h : Handling) (limit offset : Nat) (input : List Row) : List Tup := written h (collect h limit input offset 0)

end Trident.Sparql.Limit
