import Verif.Sparql.Aggr
/-!
# Hash join

Model of /repo/rdf3x/src/rts/HashJoin.cpp.  A row of either side is the join value (`leftValue`, `rightValue`) followed by the other registers (`leftTail`, `rightTail`).
A row of the join has the registers of the left side and then those of the right side.  The bindings of the join variable are those of the left side
(`mergeBindings` in /repo/rdf3x/src/cts/CodeGen.cpp:277-286).  The hints for scans (`setHashKeys`) are not modelled.
-/
namespace Trident.Sparql.Hash

/-- HashJoin.cpp:20-22 -/
def hash1 (key n : Nat) : Nat := key &&& (n - 1)

/-- HashJoin.cpp:23-25 -/
def hash2 (key n : Nat) : Nat := n + ((key ^^^ (key >>> 3)) &&& (n - 1))

/-- The entries of one key, linked by `next` (/repo/rdf3x/include/rts/operator/HashJoin.hpp, `Entry`): the number of occurrences and the values. -/
structure Chain where
  key : Nat
  entries : List (Nat × Tup)
  deriving DecidableEq

/-- `hashTable`, which has `2 * n` slots. -/
structure Table where
  n : Nat
  slot : Nat → Option Chain

/-- `hashTable[s] = c` -/
def put (t : Nat → Option Chain) (s : Nat) (c : Chain) : Nat → Option Chain := fun x => if x = s then some c else t x

/-- The loop of `insert` (HashJoin.cpp:159-166): at most `steps` exchanges.  Without a result there was a free slot; else an entry is left over. -/
def place (n : Nat) : Nat → Bool → Chain → (Nat → Option Chain) → Option Chain × (Nat → Option Chain)
  | 0, _, e, t => (some e, t)
  | k + 1, first, e, t =>
    let s := if first then hash1 e.key n else hash2 e.key n
    match t s with
    | none => (none, put t s e)
    | some e' => place n k (!first) e' (put t s e)

/-- The entries of a table in the order of the slots. -/
def entries (n : Nat) (t : Nat → Option Chain) : List Chain := (List.range (2 * n)).filterMap t

/-- `insert` (HashJoin.cpp:154-176): if there is no place, everything is inserted into a table of twice the size.  The first argument bounds the depth of the
recursion; `none` means that the bound was reached. -/
def insert : Nat → Chain → Table → Option Table
  | 0, _, _ => none
  | f + 1, e, T =>
    match place T.n T.n true e T.slot with
    | (none, t) => some ⟨T.n, t⟩
    | (some e', t) => ((entries T.n t).foldlM (fun T c => insert f c T) (⟨2 * T.n, fun _ => none⟩ : Table)).bind (insert f e')

/-- The depth of the recursion that 64 bit keys need. -/
def depth : Nat := 64

/-- The slot of a key: `slot1`, unless it is empty or has another key, and then `slot2` (HashJoin.cpp:64-72, and 178-189). -/
def find (T : Table) (key : Nat) : Option (Nat × Chain) :=
  match T.slot (hash1 key T.n) with
  | some e => if e.key = key then some (hash1 key T.n, e) else second
  | none => second
where
  second : Option (Nat × Chain) :=
    match T.slot (hash2 key T.n) with
    | some e => if e.key = key then some (hash2 key T.n, e) else none
    | none => none

/-- HashJoin.cpp:178-189 -/
def lookup (T : Table) (key : Nat) : Option Chain := (find T key).map (·.2)

/-- The loop that adds to an entry with the same values (HashJoin.cpp:74-88); `none` if there is none. -/
def aggregateIn (cnt : Nat) (tail : Tup) : List (Nat × Tup) → Option (List (Nat × Tup))
  | [] => none
  | p :: l => if p.2 = tail then some ((p.1 + cnt, p.2) :: l) else (aggregateIn cnt tail l).map (p :: ·)

/-- One row of the left side (HashJoin.cpp:50-115).  `ok` is the test of the domains of the registers (HashJoin.cpp:51-61). -/
def buildRow (ok : Tup → Bool) (T : Table) (r : Row) : Option Table :=
  if !ok r.2 then some T
  else match find T (col r.2 0) with
    | some (s, c) => some ⟨T.n, put T.slot s ⟨c.key, (aggregateIn r.1 r.2.tail c.entries).getD ((r.1, r.2.tail) :: c.entries)⟩⟩
    | none => insert depth ⟨col r.2 0, [(r.1, r.2.tail)]⟩ T

/-- `BuildHashTable::run` (HashJoin.cpp:28-125). -/
def build (ok : Tup → Bool) (left : List Row) : Option Table := left.foldlM (buildRow ok) ⟨1024, fun _ => none⟩

/-- `~0u` in a register: a missing value. -/
def null : Nat := 0xFFFFFFFF

/-- The rows of the loop over the right side (HashJoin.cpp:237-287).  `reg` is the value in `leftValue`; `lo` is `leftOptional`, `wl` the length of `leftTail`.
The second result is the value in `leftValue` at the end. -/
def probe (T : Table) (lo : Bool) (wl : Nat) : Nat → List Row → List Row × Nat
  | reg, [] => ([], reg)
  | reg, r :: rs =>
    match lookup T (col r.2 0) with
    | some c => let p := probe T lo wl c.key rs; (c.entries.map (fun e => (e.1 * r.1, c.key :: e.2 ++ r.2)) ++ p.1, p.2)
    | none =>
      let p := probe T lo wl reg rs
      (if lo then (r.1, reg :: List.replicate wl null ++ r.2) :: p.1 else p.1, p.2)

/-- The rows for the left side at the end (HashJoin.cpp:222-234 and 272-277), when `rightOptional`: for each slot whose key did not occur on the right side its
first entry.  `leftValue` and `rightValue` are not changed; `wr` is the length of `rightTail`. -/
def rest (T : Table) (right : List Row) (wr reg rreg : Nat) : List Row :=
  ((entries T.n T.slot).filter fun c => !(right.any fun r => col r.2 0 == c.key)).filterMap fun c =>
    c.entries.head?.map fun e => (e.1, reg :: e.2 ++ rreg :: List.replicate wr null)

/-- All rows (HashJoin.cpp:191-287).  `reg0` is what `leftValue` holds after the left side was read.  Without rows of the right side there is no result
(HashJoin.cpp:205-207; with `leftOptional` the product with `rightCount = 0` is 0). -/
def hashJoin (ok : Tup → Bool) (lo ro : Bool) (wl wr reg0 : Nat) (left right : List Row) : Option (List Row) :=
  (build ok left).map fun T =>
    match right.getLast? with
    | none => []
    | some z => (probe T lo wl reg0 right).1 ++ if ro then rest T right wr (probe T lo wl reg0 right).2 (col z.2 0) else []

end Trident.Sparql.Hash
