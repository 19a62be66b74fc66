/-!
# Domains of join variables

Model of /repo/rdf3x/src/rts/DomainDescription.cpp: a set of values that a variable may still have, kept as bounds and a filter of 8192 bits.  Scans skip values
that are not in the set, and hash joins drop such rows.  Words of 64 bits are natural numbers, and sums are taken modulo 2^64.  The locks of `sync` and
`restrictTo` are not modelled: each call is one step.
-/
namespace Trident.Sparql.Domain

/-- `UINT64_MAX` -/
def top : Nat := 2 ^ 64 - 1

/-- /repo/rdf3x/include/rts/runtime/DomainDescription.hpp:20-38: the bounds and `filter[filterSize]`, with `filterSize = 128` entries of 64 bits. -/
structure Dom where
  min : Nat
  max : Nat
  filter : Nat → Nat

/-- `filter[bit/filterEntryBits]` and the mask of the bit, for `bit = value%(filterSize*filterEntryBits)`. -/
def slotOf (v : Nat) : Nat := v % 8192 / 64

def maskOf (v : Nat) : Nat := 1 <<< (v % 8192 % 64)

/-- `couldQualify` (DomainDescription.cpp:39-47). -/
def couldQualify (d : Dom) (v : Nat) : Bool :=
  if v < d.min ∨ v > d.max then false else d.filter (slotOf v) &&& maskOf v != 0

/-- The loops `while (!(entry&mask)) { mask<<=1; value++; }` (DomainDescription.cpp:64-67, 77-80 and 94-97).  The first argument bounds the steps. -/
def climb (entry : Nat) : Nat → Nat → Nat → Nat
  | 0, _, value => value
  | n + 1, mask, value => if entry &&& mask != 0 then value else climb entry n (mask <<< 1 % 2 ^ 64) ((value + 1) % 2 ^ 64)

/-- `if (value>max) return UINT64_MAX; return value;` -/
def bounded (d : Dom) (value : Nat) : Nat := if value > d.max then top else value

/-- The first index in a list whose entry is not zero. -/
def nonZero (d : Dom) (l : List Nat) : Option Nat := l.find? fun i => d.filter i != 0

/-- DomainDescription.cpp:71-101: the scan over the entries after `slot`, and then over those up to `slot`.  `value` is the first value of the entry after `slot`. -/
def scanEntries (d : Dom) (slot value : Nat) : Nat :=
  match nonZero d (List.range' (slot + 1) (128 - (slot + 1))) with
  | some i => bounded d (climb (d.filter i) 64 1 ((value + 64 * (i - slot - 1)) % 2 ^ 64))
  | none =>
    let value := (value + 64 * (128 - slot - 1)) % 2 ^ 64
    match nonZero d (List.range (slot + 1)) with
    | some i => bounded d (climb (d.filter i) 64 1 ((value + 64 * i) % 2 ^ 64))
    | none => top

/-- DomainDescription.cpp:55-101, from the value that is at least the minimum. -/
def nextFrom (d : Dom) (value : Nat) : Nat :=
  let slot := slotOf value
  let ofs := value % 8192 % 64
  let entry := d.filter slot
  if entry &&& maskOf value != 0 then value
  else if entry &&& (2 ^ 64 - 1 - (maskOf value - 1)) != 0 then bounded d (climb entry 64 (maskOf value) value)
  else scanEntries d slot ((value + (64 - ofs)) % 2 ^ 64)

/-- `nextCandidate` (DomainDescription.cpp:49-102). -/
def nextCandidate (d : Dom) (v : Nat) : Nat :=
  let value := if v < d.min then d.min else v
  if value > d.max then top else nextFrom d value

/-- `PotentialDomainDescription()` (DomainDescription.cpp:104-110). -/
def potential : Dom := ⟨0, top, fun _ => 2 ^ 64 - 1⟩

/-- `sync` (DomainDescription.cpp:116-138).  Both domains become this one. -/
def sync (d e : Dom) : Dom := ⟨if d.min < e.min then e.min else d.min, if d.max > e.max then e.max else d.max, fun i => d.filter i &&& e.filter i⟩

/-- `restrictTo` (DomainDescription.cpp:140-154). -/
def restrictTo (d o : Dom) : Dom := ⟨if d.min < o.min then o.min else d.min, if d.max > o.max then o.max else d.max, fun i => d.filter i &&& o.filter i⟩

/-- `ObservedDomainDescription()` (DomainDescription.cpp:156-162). -/
def observedNone : Dom := ⟨top, 0, fun _ => 0⟩

/-- `add` (DomainDescription.cpp:164-174). -/
def add (d : Dom) (v : Nat) : Dom :=
  ⟨if v < d.min then v else d.min, if v > d.max then v else d.max, fun i => if i = slotOf v then d.filter i ||| maskOf v else d.filter i⟩

/-- The domain of a list of values. -/
def observed (l : List Nat) : Dom := l.foldl add observedNone

end Trident.Sparql.Domain
