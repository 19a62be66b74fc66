import Verif.Sparql.Aggr
/-!
# MINUS, VALUES, BIND and products

Model of /repo/rdf3x/src/rts/Minus.cpp, ValuesScan.cpp, Assignment.cpp, CartProd.cpp and NestedLoopJoin.cpp.
A row of an operator with two inputs has the registers of the left input and then those of the right one.
-/
namespace Trident.Sparql.Algebra

/-! ## MINUS -/

/-- `row`, the values of the common variables (Minus.cpp:34-37, 51-54, 75-78): the columns `cols` of a row. -/
def key (cols : List Nat) (t : Tup) : Tup := cols.map fun i => (t[i]?).getD 0

/-- `valuesToCheck.count(-1)`: is the row of one of the indices equal to `row`?  (/repo/rdf3x/include/rts/operator/Minus.hpp, `EqualVectors`; the hash values of equal
rows are equal, `HashVectors`.) -/
def present (k : Nat) (flat : List Nat) (set : List Nat) (row : Tup) : Bool := set.any fun i => (flat.drop (i * k)).take k == row

/-- Loading the rows of the minus side (Minus.cpp:29-49): `valuesHashMap` and `valuesToCheck`.  `none` is a division by zero in Minus.cpp:40. -/
def load (cols : List Nat) : List Row → List Nat → List Nat → Option (List Nat × List Nat)
  | [], flat, set => some (flat, set)
  | r :: rs, flat, set =>
    let row := key cols r.2
    if present cols.length flat set row then load cols rs flat set
    else if cols.length = 0 then none
    else load cols rs (flat ++ row) (flat.length / cols.length :: set)

/-- The rows of the main side that are returned (Minus.cpp:50-67 and 70-92). -/
def keep (cols : List Nat) (flat set : List Nat) : List Row → List Row
  | [] => []
  | r :: rs => if present cols.length flat set (key cols r.2) then keep cols flat set rs else r :: keep cols flat set rs

/-- `Minus`: the minus side is only read if the main side has a row (Minus.cpp:24-29).  `lcols` and `rcols` are the columns of the common variables. -/
def minus (lcols rcols : List Nat) (main sub : List Row) : Option (List Row) :=
  match main with
  | [] => some []
  | _ => (load rcols sub [] []).map fun s => keep lcols s.1 s.2 main

/-! ## VALUES -/

/-- `first` and `next` (ValuesScan.cpp:20-42) from the position `processed` on; the first argument bounds the number of calls. -/
def scan (k toBeProcessed : Nat) (values : List Nat) : Nat → Nat → List Row
  | 0, _ => []
  | n + 1, processed =>
    if processed < toBeProcessed then (1, (values.drop processed).take k) :: scan k toBeProcessed values n (processed + k) else []

/-- `ValuesScan` for `k` variables (ValuesScan.cpp:4-13). -/
def valuesScan (k : Nat) (values : List Nat) : List Row :=
  let n := if 0 < k then values.length / k else 0
  scan k n values (n + 1) 0

/-! ## BIND -/

/-- `AssignmentArgument`: a register or a value. -/
inductive Arg | reg (i : Nat) | value (v : Nat)

/-- The value of an argument (Assignment.cpp:34-37). -/
def Arg.get (t : Tup) : Arg → Nat
  | .reg i => (t[i]?).getD 0
  | .value v => v

/-- `Assignment` (Assignment.cpp:30-53): the input with more columns.  Both functions return `true`, which is 1, as the number of occurrences. -/
def bind (args : List Arg) (input : List Row) : List Row := input.map fun r => (1, r.2 ++ args.map (Arg.get r.2))

/-! ## Products -/

/-- `UINT64_MAX` (CartProd.cpp:38 and 51) -/
def null64 : Nat := 2 ^ 64 - 1

/-- The rows of the buffer (CartProd.cpp:46-71). -/
def buffer (rightOptional : Bool) (wr : Nat) (right : List Row) : List Row :=
  match right with
  | [] => if rightOptional then [(1, List.replicate wr null64)] else []
  | _ => right

/-- The rows of the left side (CartProd.cpp:35-45 and 105). -/
def lefts (leftOptional : Bool) (wl : Nat) (left : List Row) : List Row :=
  match left with
  | [] => if leftOptional then [(1, List.replicate wl null64)] else []
  | _ => left

/-- `CartProd` (CartProd.cpp:31-115).  `regs` are the values in the registers of the right side at the start: the first row of an empty right side is not copied into
them. -/
def cartProd (leftOptional rightOptional : Bool) (wl wr : Nat) (regs : Tup) (left right : List Row) : List Row :=
  match lefts leftOptional wl left, buffer rightOptional wr right with
  | [], _ => []
  | _, [] => []
  | l :: ls, b :: bs =>
    let t := if right.isEmpty then regs else b.2
    (l.1 * b.1, l.2 ++ t) :: (bs.map fun b => (l.1 * b.1, l.2 ++ b.2)) ++ ls.flatMap fun l => (b :: bs).map fun b => (l.1 * b.1, l.2 ++ b.2)

/-- The members of a `NestedLoopJoin`: the rest of the left side, the current row of the left side, and the rest of the right side. -/
structure NL where
  left : List Row
  cur : Row
  rest : List Row

/-- The loop `while ((rightCount=right->first())==0)` (NestedLoopJoin.cpp:38-41 and 64-67), which starts with the row `l` of the left side. -/
def nlFirst (right : List Row) : Row → List Row → Step NL
  | l, ls => match right with
    | r :: rs => .emit (l.1 * r.1, l.2 ++ r.2) ⟨ls, l, rs⟩
    | [] => match ls with
      | [] => .stop
      | l :: ls => nlFirst [] l ls

/-- `next` (NestedLoopJoin.cpp:48-72). -/
def nlNext (right : List Row) (s : NL) : Step NL :=
  match s.rest with
  | r :: rs => .emit (s.cur.1 * r.1, s.cur.2 ++ r.2) { s with rest := rs }
  | [] => match s.left with
    | [] => .stop
    | l :: ls => nlFirst right l ls

/-- The rows that are returned (`first`, NestedLoopJoin.cpp:27-46). -/
def NLReturns (left right : List Row) (out : List Row) : Prop :=
  match left with
  | [] => out = []
  | l :: ls => match nlFirst right l ls with
    | .stop => out = []
    | .go _ => False
    | .emit r s => ∃ o, Runs (nlNext right) s o ∧ out = r :: o

end Trident.Sparql.Algebra
