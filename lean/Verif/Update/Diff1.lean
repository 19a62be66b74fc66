import Verif.Query.Perm
/-!
# Updates with one column (`DiffIndex1`)

Model of /repo/src/trident/kb/diffindex1.cpp, /repo/include/trident/iterators/diff1itr.h and the part of /repo/src/trident/iterators/difftermitr.cpp that it uses: an update whose triples differ in one field only.
Indexes are the numbers of /repo/include/trident/kb/consts.h:45-50, fields are 0, 1 and 2 for subject, predicate and object.  Fewer than 2^31 values are in an update (`posValueInArray` returns an `int`).
-/
namespace Trident.Diff1

/-- A triple or a pattern: -1 is for any term. -/
abbrev T3 := Int × Int × Int

/-- The field of a triple. -/
def field (i : Nat) (t : T3) : Int := if i = 0 then t.1 else if i = 1 then t.2.1 else t.2.2

/-! ## Values -/

/-- diffindex1.cpp:414-418: `numBytesFixedLength` is at most 4 for numbers below 2^32. -/
def width (last : Nat) : Nat := if last < 4294967296 then 4 else 8

/-- What `decode_int` reads after `encode_int`, and `decode_long` after `encode_long` (kognac, not in /repo): numbers with a sign. -/
def stored (nbytes v : Nat) : Int :=
  if nbytes = 4 then (if v % 4294967296 < 2147483648 then (v % 4294967296 : Nat) else (v % 4294967296 : Nat) - 4294967296)
  else (if v % 18446744073709551616 < 9223372036854775808 then (v % 18446744073709551616 : Nat) else (v % 18446744073709551616 : Nat) - 18446744073709551616)

/-! ## The statistics -/

/-- The inner loop of `outerJoin` (diffindex1.cpp:643-645) and of the loop over the keys (460-462).  The list has the current element of the iterator and the following ones. -/
def advance (v : Nat) : List Nat → List Nat
  | c :: c' :: l => if c < v then advance v (c' :: l) else c :: c' :: l
  | l => l

/-- `outerJoin` (diffindex1.cpp:631-665), and the loop over the keys (457-474): 1 for each value that the iterator does not have.  The empty list is also for the iterator `NULL`. -/
def outerJoin : List Nat → List Nat → List Nat
  | _, [] => []
  | itr, v :: vs =>
    match advance v itr with
    | [] => 1 :: outerJoin [] vs
    | c :: l => if c < v then 1 :: outerJoin [] vs else if c ≠ v then 1 :: outerJoin (c :: l) vs else 0 :: outerJoin (c :: l) vs

/-- What the store answers: the keys of `getTermList` for a field, `existKey` for a field, the first column of `getPermuted(idx, key, -1, -1)`, and whether `getPermuted(idx, key, second, -1)` has a triple. -/
structure Kb where
  keys : Nat → List Nat
  existKey : Nat → Int → Bool
  seconds : Nat → Int → List Nat
  pair : Nat → Int → Int → Bool

/-- The fields of `DiffIndex1` (diffindex.h:127-141); `values` is as it is read. -/
structure Index where
  nbytes : Nat
  size : Nat
  posValues : Nat
  triple : T3
  values : List Int
  nkeys : List Nat
  nuniquekeys : List Nat
  nfirstterms : List Nat
  nuniquefirstterms : List Nat
  newpairs1 : List Nat
  newpairs2 : List Nat

/-- 0 or 1. -/
def absent (b : Bool) : Nat := if b then 0 else 1

/-- `createDiffIndex` (diffindex1.cpp:383-629) and the constructor (32-72), which reads what was written.  `none`: there are no values, and `values.back()` is undefined. -/
def create (kb : Kb) (t : T3) (vs : List Nat) (pos : Nat) : Option Index :=
  match vs.getLast? with
  | none => none
  | some last =>
    let nb := width last
    let size := vs.length
    let new := (outerJoin (kb.keys pos) vs).sum
    let (s, p, o) := t
    if pos = 0 then
      let n1 := outerJoin (kb.seconds 5 p) vs
      let n2 := outerJoin (kb.seconds 4 o) vs
      let c := absent (kb.pair 2 p o)
      some ⟨nb, size, pos, t, vs.map (stored nb), [size, 1, 1], [new, absent (kb.existKey 1 p), absent (kb.existKey 2 o)], [size, 1, 1, size, size, size],
        [n1.sum, c, c, n2.sum, n2.sum, n1.sum], n1, n2⟩
    else if pos = 1 then
      let n1 := outerJoin (kb.seconds 0 s) vs
      let n2 := outerJoin (kb.seconds 1 o) vs
      let c := absent (kb.pair 3 s o)
      some ⟨nb, size, pos, t, vs.map (stored nb), [1, size, 1], [absent (kb.existKey 0 s), new, absent (kb.existKey 2 o)], [size, size, size, 1, 1, size],
        [n1.sum, n2.sum, n2.sum, c, c, n1.sum], n1, n2⟩
    else
      let n1 := outerJoin (kb.seconds 3 s) vs
      let n2 := outerJoin (kb.seconds 2 p) vs
      let c := absent (kb.pair 0 s p)
      some ⟨nb, size, pos, t, vs.map (stored nb), [1, 1, size], [absent (kb.existKey 0 s), absent (kb.existKey 1 p), new], [1, size, size, size, size, 1],
        [c, n2.sum, n2.sum, n1.sum, n1.sum, c], n1, n2⟩

/-! ## Iterators -/

/-- The fields of `Diff1Itr` (diff1itr.h:30-40); `rest` is what is between `s` and `e`. -/
structure Itr where
  key : Int
  v1 : Int
  v2 : Int
  noseccol : Bool
  first : Bool
  rest : List Int
  posarray : Nat
  nelements : Nat

/-- `init` (diff1itr.h:141-154).  The assignment `first = true` sets the parameter with that name: the field keeps the value `old` that the memory had. -/
def init (old : Bool) (t : T3) (values : List Int) (posarray : Nat) : Itr := ⟨t.1, t.2.1, t.2.2, false, old, values, posarray, values.length⟩

/-- `ignoreSecondColumn` (diff1itr.h:62-66). -/
def Itr.ignoreSecondColumn (it : Itr) : Itr := { it with noseccol := true, rest := if it.first = false ∧ it.posarray = 2 then [] else it.rest }

/-- `next` (diff1itr.h:71-103). -/
def Itr.next (it : Itr) : Itr :=
  match it.rest with
  | [] => it
  | x :: l =>
    if it.posarray = 0 then { it with first := false, key := x, rest := l }
    else if it.posarray = 1 then { it with first := false, v1 := x, rest := l }
    else if it.noseccol then { it with first := false, rest := [] }
    else { it with first := false, v2 := x, rest := l }

/-- What is read while `hasNext`; the number of turns is at most the first argument. -/
def Itr.drain : Nat → Itr → List T3
  | 0, _ => []
  | n + 1, it => if it.rest = [] then [] else (it.next.key, it.next.v1, it.next.v2) :: it.next.drain n

/-- All triples of the iterator. -/
def Itr.all (it : Itr) : List T3 := it.drain it.rest.length

/-- The loops of `posValueInArray` and `valueInArray` (diffindex1.cpp:274-320): between the positions `s` and `e`.  The first argument bounds the turns. -/
def bsearch (values : List Int) (v : Int) : Nat → Nat → Nat → Option Nat
  | 0, _, _ => none
  | f + 1, s, e =>
    if s < e then
      let middle := s + (e - s) / 2
      let x := values.getD middle 0
      if x < v then bsearch values v f (middle + 1) e
      else if x > v then bsearch values v f s middle
      else some middle
    else none

/-- `posValueInArray`. -/
def Index.posValue (ix : Index) (v : Int) : Nat := (bsearch ix.values v ix.size 0 ix.size).getD ix.size

/-- `valueInArray`. -/
def Index.valueIn (ix : Index) (v : Int) : Bool := (bsearch ix.values v ix.size 0 ix.size).isSome

/-- A flag of a file of new pairs; the position is never -1 here. -/
def flag (l : List Nat) : Option Nat → Nat
  | some i => l.getD i 0
  | none => 0

/-- `getNFirstTerms` (diffindex1.cpp:194-252). -/
def Index.nFirst (ix : Index) (idx : Nat) (first : Int) (pos : Option Nat) (second : Int) : Nat :=
  if first = -1 then 0
  else if second ≥ 0 then 1
  else if ix.posValues = 0 then
    if idx = 0 then flag ix.newpairs1 pos else if idx = 3 then flag ix.newpairs2 pos else ix.nuniquefirstterms.getD idx 0
  else if ix.posValues = 1 then
    if idx = 2 then flag ix.newpairs2 pos else if idx = 5 then flag ix.newpairs1 pos else ix.nuniquefirstterms.getD idx 0
  else if idx = 1 then flag ix.newpairs2 pos
  else if idx = 4 then flag ix.newpairs1 pos
  else if idx = 2 then ix.nuniquefirstterms.getD 1 0
  else if idx = 5 then ix.nuniquefirstterms.getD 4 0
  else ix.nuniquefirstterms.getD idx 0

/-- The three branches of `getIterator` (diffindex1.cpp:126-191) for the field of the values; `x` is the term of the pattern there. -/
def Index.branch (ix : Index) (old : Bool) (t : T3) (idx q : Nat) (x first second : Int) : Option Itr × Nat :=
  if x ≥ 0 then
    if ix.posValue x = ix.size then (none, 0)
    else (some (init old t ((ix.values.drop (ix.posValue x)).take 1) q), ix.nFirst idx first (some (ix.posValue x)) second)
  else (some (init old t ix.values q), ix.nFirst idx first none second)

/-- `getIterator` (diffindex1.cpp:75-192): the iterator, `none` for the empty one, and what is added to `nfirstterms`.  `old` is left in the memory of the iterator. -/
def Index.getIterator (ix : Index) (old : Bool) (idx : Nat) (first second third : Int) : Option Itr × Nat :=
  let t := permute idx ix.triple.1 ix.triple.2.1 ix.triple.2.2
  if first ≠ -1 ∧ t.1 ≠ -1 ∧ first ≠ t.1 then (none, 0)
  else if second ≠ -1 ∧ t.2.1 ≠ -1 ∧ second ≠ t.2.1 then (none, 0)
  else if third ≠ -1 ∧ t.2.2 ≠ -1 ∧ third ≠ t.2.2 then (none, 0)
  else if t.1 = -1 then ix.branch old t idx 0 first first second
  else if t.2.1 = -1 then ix.branch old t idx 1 second first second
  else ix.branch old t idx 2 third first second

/-- The triples that are read. -/
def triples (r : Option Itr × Nat) : List T3 := match r.1 with
  | none => []
  | some it => it.all

/-! ## Keys -/

/-- The field with the keys of an index (diffindex1.cpp:255-262, 323-362). -/
def keyField (idx : Nat) : Nat := if idx = 2 ∨ idx = 5 then 1 else if idx = 0 ∨ idx = 3 then 0 else 2

/-- `getCard` (diffindex1.cpp:322-365). -/
def Index.getCard (ix : Index) (idx : Nat) (first : Int) : Nat :=
  if ix.posValues = keyField idx then (if ix.valueIn first then 1 else 0)
  else if first = field (keyField idx) ix.triple then ix.size else 0

/-- `getNUniqueKeys` (diffindex1.cpp:371-373); `none`: the index is not in the array. -/
def Index.getNUniqueKeys (ix : Index) (idx : Nat) : Option Nat := ix.nuniquekeys[idx]?

/-- `getUniqueNFirstTerms` (diffindex1.cpp:375-377). -/
def Index.getUniqueNFirstTerms (ix : Index) (idx : Nat) : Option Nat := ix.nuniquefirstterms[idx]?

/-- `getNFirstTables` (diffindex1.cpp:379-381). -/
def Index.getNFirstTables (ix : Index) (idx : Nat) : Option Nat := ix.nfirstterms[idx]?

/-- `getTermListItr` (diffindex1.cpp:254-268) and the keys that the iterator returns (difftermitr.cpp:25-62, 85-112); `none`: the index is not in the array.
The array has `nkeys[idx]` keys of the file. -/
def Index.termList (ix : Index) (idx : Nat) : Option (List Int) :=
  ix.nkeys[idx]?.map fun n => if keyField idx = ix.posValues then ix.values.take n else [field (keyField idx) ix.triple]

end Trident.Diff1
