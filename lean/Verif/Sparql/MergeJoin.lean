import Verif.Sparql.HashJoin
/-!
# Merge join

Model of /repo/rdf3x/src/rts/MergeJoin.cpp.  Both inputs are sorted by the join value.  A row of either side is the join value followed by the other registers.
`disableSkipping` only reads on to the end; it is left out.

The inputs may skip rows: an index scan below asks in some calls of `next` for the value of the register of the other side
(/repo/rdf3x/src/rts/IndexScan.cpp:151-222, `merge1`, `merge2`), and moves to the first row with at least that value (/repo/src/layers/TridentLayer.cpp:1085-1119).
-/
namespace Trident.Sparql.Merge
open Hash (null)

/-- /repo/rdf3x/include/rts/operator/MergeJoin.hpp:31-40.  `scanStepBoth` is never set. -/
inductive St
  | empty | scanHasBothSwapped | scanStepLeft | scanStepRight | scanHasBoth | loopEmptyLeft | loopEmptyRight | loopEmptyRightHasData
  | loopEqualLeftHasData | loopEqualLeft | loopEqualRightHasData | loopEqualRight | loopSpooledRightEmpty | loopSpooledRightHasData
  | scanStepLeftCopyRight | scanStepRightCopyLeft | loopEmptyLeftCopyLeft | loopEmptyRightCopyRight
  deriving DecidableEq, Repr

/-- `leftOptional`, `rightOptional`, the numbers of registers of both sides, and what the registers of a side hold when it is exhausted. -/
structure Env where
  lo : Bool
  ro : Bool
  wl : Nat
  wr : Nat
  jl : Tup
  jr : Tup
  /-- The calls of `next` of the left side that skip. -/
  hl : Nat → Bool := fun _ => false
  /-- The calls of `next` of the right side that skip. -/
  hr : Nat → Bool := fun _ => false

/-- The calls in which a scan asks for the hint (TridentLayer.cpp:1087, 1107-1108 with COUNTHINT_MAX 1). -/
def everyThird (n : Nat) : Bool := n % 3 == 0

/-- MergeJoin.hpp:42-57: the state, the registers and counts of both sides, their shadows, the rows that the inputs will return, and the buffer with the
position in it.  `nl` and `nr` count the calls of `next`. -/
structure MJ where
  st : St
  l : Row
  r : Row
  lsh : Row
  rsh : Row
  ls : List Row
  rs : List Row
  buf : List Row
  bi : List Row
  inCopy : Bool
  nl : Nat := 0
  nr : Nat := 0

/-- The join value. -/
def key (t : Row) : Nat := col t.2 0

/-- MergeJoin.cpp:87-94 -/
def MJ.swapLeft (a : MJ) : MJ := { a with l := a.lsh, lsh := a.l }

/-- MergeJoin.cpp:105-112 -/
def MJ.swapRight (a : MJ) : MJ := { a with r := a.rsh, rsh := a.r }

/-- The rows that a scan still returns when it skips to the value `v` (IndexScan.cpp:163-170, TridentLayer.cpp:1100-1103). -/
def skip (v : Nat) (l : List Row) : List Row := if v = 2 ^ 64 - 1 then l else l.dropWhile fun x => key x < v

/-- `leftCount=left->next()` (MergeJoin.cpp:182, 260, 348, 393, 471) -/
def MJ.nextLeft (e : Env) (a : MJ) : MJ :=
  match if e.hl a.nl then skip (key a.r) a.ls else a.ls with
  | [] => { a with l := (0, e.jl), ls := [], nl := a.nl + 1 }
  | x :: ls => { a with l := x, ls := ls, nl := a.nl + 1 }

/-- `rightCount=right->next()` (MergeJoin.cpp:197, 270, 309, 427) -/
def MJ.nextRight (e : Env) (a : MJ) : MJ :=
  match if e.hr a.nr then skip (key a.l) a.rs else a.rs with
  | [] => { a with r := (0, e.jr), rs := [], nr := a.nr + 1 }
  | x :: rs => { a with r := x, rs := rs, nr := a.nr + 1 }

/-- All registers of the left side get `~0u` (MergeJoin.cpp:184-187, 245-248, 326-329, 395-400, 473-478; the tests whether the value is `~0u` already are left out). -/
def MJ.nullLeft (e : Env) (a : MJ) : MJ := { a with l := (a.l.1, List.replicate e.wl null) }

/-- All registers of the right side get `~0u` (MergeJoin.cpp:199-202, 223-226, 370-373, 429-434, 498-503). -/
def MJ.nullRight (e : Env) (a : MJ) : MJ := { a with r := (a.r.1, List.replicate e.wr null) }

/-- `return count` with the registers as they are (MergeJoin.cpp:264-266). -/
def MJ.out (a : MJ) (n : Nat) : Row := (n, a.l.2 ++ a.r.2)

/-- The rows of the same value, and the others (the loop of MergeJoin.cpp:126-156). -/
def spool (k : Nat) : List Row → List Row × List Row
  | [] => ([], [])
  | x :: l => if key x ≠ k then ([], x :: l) else let p := spool k l; (x :: p.1, p.2)

/-- `handleNM` (MergeJoin.cpp:114-157): at the start the first row of the right side is in the registers, and the second in the shadow.
Skipping has no effect here, because the register of the left side has the value of the block. -/
def MJ.handleNM (e : Env) (a : MJ) : MJ :=
  let p := spool (key a.r) (a.rsh :: a.rs)
  match p.2 with
  | [] => { a with buf := a.r :: p.1, bi := a.r :: p.1, inCopy := true, st := .loopSpooledRightEmpty, r := (0, e.jr), rsh := a.r, rs := [], nr := a.nr + p.1.length }
  | x :: rs => { a with buf := a.r :: p.1, bi := a.r :: p.1, inCopy := true, st := .loopSpooledRightHasData, rsh := x, rs := rs, nr := a.nr + p.1.length }

/-- A match, with the next rows of both sides in the shadows (MergeJoin.cpp:279-302). -/
def block (e : Env) (f : MJ) : Step MJ :=
  if key f.l = key f.lsh then
    if key f.r = key f.rsh then .go (f.handleNM e)
    else .emit (f.out (f.l.1 * f.r.1)) { f with st := .loopEqualLeftHasData }
  else if key f.r = key f.rsh then .emit (f.out (f.l.1 * f.r.1)) { f with st := .loopEqualRightHasData }
  else .emit (f.out (f.l.1 * f.r.1)) { f with st := .scanHasBothSwapped }

/-- A match, when the next row of both sides has been read (MergeJoin.cpp:270-302). -/
def matchedBoth (e : Env) (d : MJ) : Step MJ :=
  if d.r.1 = 0 then .emit (d.swapRight.out (d.swapRight.l.1 * d.swapRight.r.1)) { d.swapRight with st := .loopEmptyRightHasData }
  else block e d.swapRight

/-- A match, when the next row of the left side has been read (MergeJoin.cpp:260-302). -/
def matched (e : Env) (b : MJ) : Step MJ :=
  let c := b.swapLeft
  if b.l.1 = 0 then .emit (c.out (c.l.1 * c.r.1)) { c with st := .loopEmptyLeft }
  else matchedBoth e (MJ.nextRight e { c with rsh := c.r })

/-- MergeJoin.cpp:209-302 -/
def compare (e : Env) (a : MJ) : Step MJ :=
  if key a.l < key a.r then
    if e.ro then
      if key a.r = null then .emit (a.out a.l.1) { a with st := .scanStepLeft }
      else
        let b := MJ.nullRight e { a with rsh := a.r }
        .emit (b.out b.l.1) { b with st := .scanStepLeftCopyRight }
    else .go { a with st := .scanStepLeft }
  else if key a.l > key a.r then
    if e.lo then
      if key a.l = null then .emit (a.out a.r.1) { a with st := .scanStepRight }
      else
        let b := MJ.nullLeft e { a with lsh := a.l }
        .emit (b.out b.r.1) { b with st := .scanStepRightCopyLeft }
    else .go { a with st := .scanStepRight }
  else matched e (MJ.nextLeft e { a with lsh := a.l })

/-- MergeJoin.cpp:309-341, when the next row of the right side has been read. -/
def emptyLeftWith (e : Env) (b : MJ) : Step MJ :=
  if b.r.1 = 0 then .stop
  else if key b.l = key b.r then .emit (b.out (b.l.1 * b.r.1)) b
  else if e.lo then
    if key b.l ≠ null then
      let c := MJ.nullLeft e (if key b.l > key b.r then { b.swapLeft with st := .loopEmptyLeftCopyLeft } else b)
      .emit (c.out c.r.1) c
    else .emit (b.out b.r.1) b
  else if key b.l < key b.r then .stop
  else .go b

/-- MergeJoin.cpp:307-341 -/
def emptyLeft (e : Env) (a : MJ) : Step MJ := emptyLeftWith e (MJ.nextRight e { a with st := .loopEmptyLeft })

/-- MergeJoin.cpp:353-385 -/
def emptyRight (e : Env) (a : MJ) : Step MJ :=
  let b := { a with st := .loopEmptyRight }
  if key b.l = key b.r then .emit (b.out (b.l.1 * b.r.1)) b
  else if e.ro then
    if key b.r ≠ null then
      let c := MJ.nullRight e (if key b.r > key b.l then { b.swapRight with st := .loopEmptyRightCopyRight } else b)
      .emit (c.out c.l.1) c
    else .emit (b.out b.l.1) b
  else if key b.l > key b.r then .stop
  else .go b

/-- MergeJoin.cpp:346-385, when the next row of the left side has been read. -/
def emptyRightWith (e : Env) (b : MJ) : Step MJ := if b.l.1 = 0 then .stop else emptyRight e b

/-- MergeJoin.cpp:411-419 -/
def equalLeft (a : MJ) : Step MJ :=
  if key a.l ≠ key a.lsh then .go { a.swapRight with st := .scanHasBoth }
  else .emit (a.out (a.l.1 * a.r.1)) { a with st := .loopEqualLeft }

/-- MergeJoin.cpp:390-419, when the next row of the left side has been read. -/
def equalLeftWith (e : Env) (b : MJ) : Step MJ :=
  if b.l.1 = 0 then (if e.lo then .go { b.nullLeft e with st := .scanStepRight } else .stop) else equalLeft b

/-- MergeJoin.cpp:445-453 -/
def equalRight (a : MJ) : Step MJ :=
  if key a.r ≠ key a.rsh then .go { a.swapLeft with st := .scanHasBoth }
  else .emit (a.out (a.l.1 * a.r.1)) { a with st := .loopEqualRight }

/-- MergeJoin.cpp:424-453, when the next row of the right side has been read. -/
def equalRightWith (e : Env) (b : MJ) : Step MJ :=
  if b.r.1 = 0 then (if e.ro then .go { b.nullRight e with st := .scanStepLeft } else .stop) else equalRight b

/-- MergeJoin.cpp:489-517 -/
def spooled (e : Env) (b : MJ) : Step MJ :=
  if key b.l = key b.lsh then .go { b with bi := b.buf }
  else if b.st = .loopSpooledRightEmpty then (if e.ro then .go { b.nullRight e with st := .loopEmptyRight } else .stop)
  else .go { b.swapRight with st := .scanHasBoth }

/-- MergeJoin.cpp:471-517, when the next row of the left side has been read. -/
def spooledWith (e : Env) (b : MJ) : Step MJ :=
  if b.l.1 = 0 then (if e.lo then .go { b.nullLeft e with st := .loopEmptyLeft } else .stop) else spooled e b

/-- MergeJoin.cpp:454-518 -/
def fromBuffer (e : Env) (a : MJ) : Step MJ :=
  match a.bi with
  | x :: bi => .emit ({ a with r := x }.out (a.l.1 * x.1)) { a with r := x, bi := bi }
  | [] => if a.inCopy then spooled e { a.swapLeft with inCopy := false } else spooledWith e (a.nextLeft e)

/-- MergeJoin.cpp:181-207, when the next row of the left side has been read. -/
def stepLeftWith (e : Env) (b : MJ) : Step MJ :=
  if b.l.1 = 0 then (if e.lo then compare e (b.nullLeft e) else .stop) else compare e b

/-- MergeJoin.cpp:196-207, when the next row of the right side has been read. -/
def stepRightWith (e : Env) (b : MJ) : Step MJ :=
  if b.r.1 = 0 then (if e.ro then compare e (b.nullRight e) else .stop) else compare e b

/-- One round of the loop of `next` (MergeJoin.cpp:159-521). -/
def step (e : Env) (a : MJ) : Step MJ :=
  match a.st with
  | .empty => .stop
  | .scanStepLeftCopyRight => .go { a.swapRight with st := .scanStepLeft }
  | .scanStepRightCopyLeft => .go { a.swapLeft with st := .scanStepRight }
  | .scanHasBothSwapped => compare e a.swapLeft.swapRight
  | .scanStepLeft => stepLeftWith e (a.nextLeft e)
  | .scanStepRight => stepRightWith e (a.nextRight e)
  | .scanHasBoth => compare e a
  | .loopEmptyLeftCopyLeft => emptyLeft e a.swapLeft
  | .loopEmptyLeft => emptyLeft e a
  | .loopEmptyRightCopyRight => emptyRightWith e (a.swapRight.nextLeft e)
  | .loopEmptyRight => emptyRightWith e (a.nextLeft e)
  | .loopEmptyRightHasData => emptyRight e a.swapLeft
  | .loopEqualLeftHasData => equalLeft a.swapLeft
  | .loopEqualLeft => equalLeftWith e (a.nextLeft e)
  | .loopEqualRightHasData => equalRight a.swapRight
  | .loopEqualRight => equalRightWith e (a.nextRight e)
  | .loopSpooledRightEmpty => fromBuffer e a
  | .loopSpooledRightHasData => fromBuffer e a

/-- `first()` (MergeJoin.cpp:37-76): a row that it returns itself, and the state; without state there is no row. -/
def first (e : Env) (left right : List Row) : Option (Option Row × MJ) :=
  match left, right with
  | [], [] => none
  | [], y :: rs =>
    let a : MJ := { st := .loopEmptyLeft, l := (0, List.replicate e.wl null), r := y, lsh := (0, []), rsh := (0, []), ls := [], rs := rs, buf := [], bi := [], inCopy := false }
    if e.lo then some (some (a.out y.1), a) else none
  | x :: ls, [] =>
    let a : MJ := { st := .loopEmptyRight, l := x, r := (0, List.replicate e.wr null), lsh := (0, []), rsh := (0, []), ls := ls, rs := [], buf := [], bi := [], inCopy := false }
    if e.ro then some (some (a.out x.1), a) else none
  | x :: ls, y :: rs => some (none, { st := .scanHasBoth, l := x, r := y, lsh := (0, []), rsh := (0, []), ls := ls, rs := rs, buf := [], bi := [], inCopy := false })

/-- The operator returns the rows `out`, and then ends. -/
def Returns (e : Env) (left right out : List Row) : Prop :=
  match first e left right with
  | none => out = []
  | some (none, a) => Runs (step e) a out
  | some (some x, a) => ∃ l, Runs (step e) a l ∧ out = x :: l

end Trident.Sparql.Merge
