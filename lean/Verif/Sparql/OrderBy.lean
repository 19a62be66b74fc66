import Verif.Sparql.Op
import Verif.Sparql.Select
/-!
# ORDER BY

The operator `Sort` (/repo/rdf3x/src/rts/Sort.cpp).
-/
namespace Trident.Sparql.OrderBy

open Select (Text Dict)

/-- What the comparison depends on: the dictionary; whether `supportBuffer` begins with `<`, which is the buffer of the other function `lookupById` and holds the last term that
was printed or used in a condition (/repo/src/layers/TridentLayer.cpp:95, 125); and the comparison of two inline numbers of which one is a `float` (`DictMgmt::compare`,
/repo/include/trident/kb/dictmgmt.h:258-292). -/
structure Env where
  text : Dict
  stale : Bool
  floats : Nat → Nat → Ordering

/-- `Sort::Order` (/repo/rdf3x/include/rts/operator/Sort.hpp:29-35): the position of the value, and whether the order is descending. -/
structure Key where
  slot : Nat
  desc : Bool
  deriving DecidableEq, Repr

/-- `Sort::Sort` (Sort.cpp:107-134).  `values` are the registers, `order` those to sort by; `none` is the null pointer that stands for the number of occurrences.  `slot` has 64 bits
and `~0u` has 32, so that an absent register is also kept. -/
def keys (values : List Nat) (order : List (Option Nat × Bool)) : List Key :=
  order.map fun o => match o.1 with
    | none => ⟨2 ^ 32 - 1, o.2⟩
    | some x => ⟨(values.idxOf? x).getD (2 ^ 32 - 1), o.2⟩

/-- `DictMgmt::isnumeric` (dictmgmt.h:213-216): one of the two highest bits is set. -/
def isNumeric (v : Nat) : Bool := decide (v / 2 ^ 62 % 4 ≠ 0)

/-- `DictMgmt::compare` (dictmgmt.h:246-293) for the types of the two numbers (`getType`, 241-244). -/
def compareNumbers (E : Env) (v1 v2 : Nat) : Ordering :=
  if v1 / 2 ^ 62 % 4 = 1 ∧ v2 / 2 ^ 62 % 4 = 1 then compare (v1 % 2 ^ 62) (v2 % 2 ^ 62) else E.floats v1 v2

/-- `TridentLayer::lookupById` with a buffer (TridentLayer.cpp:113-134): the bytes of the text that count.  `output + 1` is not seen by the caller.  A length less than 2 is
made very large, and the comparison reads outside of the buffers: `error`. -/
def lookup (E : Env) (v : Nat) : Option (Except Unit Text) :=
  (E.text v).map fun t => if E.stale then if t.length < 2 then .error () else .ok (t.take (t.length - 2)) else .ok t

/-- `memcmp` of the first `n` bytes. -/
def memcmp : Nat → Text → Text → Ordering
  | n + 1, a :: s, b :: t => if a < b then .lt else if b < a then .gt else memcmp n s t
  | _, _, _ => .eq

/-- The comparison of two different values (Sort.cpp:52-101): `lt` and `gt` end it, after `eq` the next key decides.  The types are equal, because they depend on `supportBuffer` only,
and there are no subtypes. -/
def compareValues (E : Env) (v1 v2 : Nat) : Except Unit Ordering :=
  if v1 = v2 then .ok .eq
  else if v1 = 2 ^ 64 - 1 then .ok .lt
  else if v2 = 2 ^ 64 - 1 then .ok .gt
  else if isNumeric v1 && isNumeric v2 then .ok (compareNumbers E v1 v2)
  else
    match lookup E v1 with
    | none => .ok .eq
    | some r1 =>
      match lookup E v2 with
      | none => .ok .eq
      | some r2 => r1.bind fun t1 => r2.bind fun t2 =>
        match memcmp (min t1.length t2.length) t1 t2 with
        | .lt => .ok .lt
        | .gt => .ok .gt
        | .eq =>
          if t1.length < t2.length then .ok .lt
          else if t2.length < t1.length then .ok .gt
          else if v1 < v2 then .ok .lt
          else .ok .gt

/-- `Sorter::operator()` (Sort.cpp:38-117).  A position outside of the row: `error`. -/
def less (E : Env) : List Key → Row → Row → Except Unit Bool
  | [], _, _ => .ok false
  | k :: ks, a, b =>
    if k.slot ≠ 2 ^ 64 - 1 then
      match a.2[k.slot]?, b.2[k.slot]? with
      | some v, some w =>
        (compareValues E (if k.desc then w else v) (if k.desc then v else w)).bind fun
          | .lt => .ok true
          | .gt => .ok false
          | .eq => less E ks a b
      | _, _ => .error ()
    else if k.desc then if a.1 > b.1 then .ok true else if a.1 < b.1 then .ok false else less E ks a b
    else if a.1 < b.1 then .ok true else if a.1 > b.1 then .ok false else less E ks a b

/-- What `std::sort` requires of the comparison, on these rows: it is defined, and a strict weak order. -/
structure Valid (lt : Row → Row → Except Unit Bool) (rows : List Row) : Prop where
  defined : ∀ a ∈ rows, ∀ b ∈ rows, ∃ r, lt a b = .ok r
  irrefl : ∀ a ∈ rows, lt a a = .ok false
  trans : ∀ a ∈ rows, ∀ b ∈ rows, ∀ c ∈ rows, lt a b = .ok true → lt b c = .ok true → lt a c = .ok true
  equiv : ∀ a ∈ rows, ∀ b ∈ rows, ∀ c ∈ rows, lt a b = .ok false → lt b a = .ok false → lt b c = .ok false → lt c b = .ok false → lt a c = .ok false ∧ lt c a = .ok false

/-- The rows that the operator returns (`Sort::first`, `Sort::next`, Sort.cpp:142-184): the rows of the input as `std::sort` leaves them.  If the comparison is not as required, the
behaviour is undefined: anything can be returned. -/
inductive Returns (E : Env) (ks : List Key) (rows : List Row) : List Row → Prop
  | sorted {out} : Valid (less E ks) rows → out.Perm rows → out.Pairwise (fun a b => less E ks b a = .ok false) → Returns E ks rows out
  | undefined {out} : ¬ Valid (less E ks) rows → Returns E ks rows out

end Trident.Sparql.OrderBy
