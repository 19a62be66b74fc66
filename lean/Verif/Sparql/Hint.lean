import Verif.Sparql.Domain
/-!
# Scans that skip

Model of `IndexScanHint::next` (/repo/rdf3x/src/rts/IndexScan.cpp:151-222), `AggregatedHint::next` (/repo/rdf3x/src/rts/AggregatedIndexScan.cpp:83-132) and
`TridentScan::next` (/repo/src/layers/TridentLayer.cpp:1085-1121): before a scan goes on, it asks which values can still be useful, and jumps there.
-/
namespace Trident.Sparql.Hint
open Domain

/-- What is known about one column: the constant (`bound1` and the register `value1`), the registers of other inputs of merge joins (`merge1`) and the domain. -/
structure Slot where
  bound : Option Nat
  merges : List Nat
  dom : Option Dom

/-- `if ((~v) && (v > value)) value = v;` -/
def raise (value v : Nat) : Nat := if v ≠ top ∧ v > value then v else value

/-- The constant and the registers of one column (IndexScan.cpp:154-170 for the first one). -/
def known (s : Slot) (value : Nat) : Nat := s.merges.foldl raise ((s.bound.map (raise value)).getD value)

/-- One of the first two columns with its domain (IndexScan.cpp:154-178 and 181-202). -/
def column (s : Slot) (value : Nat) : Nat :=
  match s.dom with
  | none => known s value
  | some d => if nextCandidate d (known s value) > known s value then nextCandidate d (known s value) else known s value

/-- The third column (IndexScan.cpp:205-221): here `UINT64_MAX` is not used. -/
def column3 (s : Slot) (value : Nat) : Nat :=
  match s.dom with
  | none => known s value
  | some d => raise (known s value) (nextCandidate d (known s value))

/-- `IndexScanHint::next` (IndexScan.cpp:151-222): a larger value in one column resets those after it to 0. -/
def next3 (s1 s2 s3 : Slot) (v : Nat × Nat × Nat) : Nat × Nat × Nat :=
  let a := column s1 v.1
  let b0 := if a > v.1 then 0 else v.2.1
  let c0 := if a > v.1 then 0 else v.2.2
  let b := column s2 b0
  (a, b, column3 s3 (if b > b0 then 0 else c0))

/-- `AggregatedHint::next` (AggregatedIndexScan.cpp:83-132). -/
def next2 (s1 s2 : Slot) (v : Nat × Nat) : Nat × Nat :=
  let a := column s1 v.1
  (a, column s2 (if a > v.1 then 0 else v.2))

/-- A row of a scan over an order: the key and the two other values. -/
abbrev Triple := Nat × Nat × Nat

/-- `itr->moveto(p, o)` for a sorted list of rows that are still to come: the iterator goes on in the table of the current key at the first pair that is not
smaller (C13); the other tables are not touched (/repo/src/trident/iterators/scanitr.cpp:372-380). -/
def movedTo (key p o : Nat) (rest : List Triple) : List Triple :=
  rest.filter fun t => t.1 ≠ key ∨ p < t.2.1 ∨ (p = t.2.1 ∧ o ≤ t.2.2)

/-- The part of `TridentScan::next` before the iterator is advanced, for all three columns (TridentLayer.cpp:1087-1089 and 1098-1101). -/
def skip3 (s1 s2 s3 : Slot) (cur : Triple) (rest : List Triple) : List Triple :=
  let h := next3 s1 s2 s3 (0, 0, 0)
  if h.2.1 > cur.2.1 then movedTo cur.1 h.2.1 h.2.2 rest else rest

/-- `if (hint && countHint == 0)` (TridentLayer.cpp:1087). -/
def skipped3 (h : Option (Slot × Slot × Slot)) (cur : Triple) (rest : List Triple) : List Triple :=
  match h with
  | none => rest
  | some s => skip3 s.1 s.2.1 s.2.2 cur rest

/-- All rows of a scan whose current row is `cur`.  `hints` gives for each call of `next` what is known in that call, or nothing if the hint is not asked for
(`countHint`).  Registers and domains may change between the calls. -/
def rows3 : List (Option (Slot × Slot × Slot)) → Triple → List Triple → List Triple
  | [], cur, rest => cur :: rest
  | h :: hs, cur, rest =>
    cur :: match skipped3 h cur rest with
      | [] => []
      | t :: rest' => rows3 hs t rest'

/-- A row of a scan of the first two columns: the key, the value, and the number of triples. -/
abbrev Pair := Nat × Nat × Nat

/-- The same for two columns (TridentLayer.cpp:1089-1097): also the key may be passed, by `gotoKey`. -/
def skip2 (s1 s2 : Slot) (cur : Pair) (rest : List Pair) : List Pair :=
  let h := next2 s1 s2 (0, 0)
  if h.1 > cur.1 then rest.filter fun t => h.1 ≤ t.1
  else if h.1 = cur.1 ∧ h.2 > cur.2.1 then rest.filter fun t => t.1 ≠ cur.1 ∨ h.2 ≤ t.2.1
  else rest

/-- TridentLayer.cpp:1087 -/
def skipped2 (h : Option (Slot × Slot)) (cur : Pair) (rest : List Pair) : List Pair :=
  match h with
  | none => rest
  | some s => skip2 s.1 s.2 cur rest

/-- All rows of such a scan. -/
def rows2 : List (Option (Slot × Slot)) → Pair → List Pair → List Pair
  | [], cur, rest => cur :: rest
  | h :: hs, cur, rest =>
    cur :: match skipped2 h cur rest with
      | [] => []
      | t :: rest' => rows2 hs t rest'

end Trident.Sparql.Hint
