import Verif.Sparql.Op
/-!
# GROUP BY and aggregates

Model of /repo/rdf3x/src/rts/GroupBy.cpp, /repo/rdf3x/src/rts/AggrFunctions.cpp and /repo/src/trident/sparql/aggrhandler.cpp.
The plan of a query with aggregates is `AggrFunctions` over `GroupBy` over the rest (/repo/rdf3x/src/cts/PlanGen.cpp:1279-1321).
-/
namespace Trident.Sparql

/-- The value of the register of a column. -/
def col (t : Tup) (i : Nat) : Nat := t.getD i 0

/-! ## GroupBy -/

/-- The comparison of two rows by some fields (GroupBy.cpp:54-66, `ValueSorter`). -/
def ltF : List Nat → Tup → Tup → Bool
  | [], _, _ => false
  | f :: fs, a, b => if col a f < col b f then true else if col a f > col b f then false else ltF fs a b

/-- The contents of `values` after `std::sort` (GroupBy.cpp:84-103): a permutation of the rows of the input in which no row is smaller than an
earlier one.  Which one is not determined.  `fields` are the positions of the variables of GROUP BY (GroupBy.cpp:23-46). -/
def Sorted (fields : List Nat) (input values : List Row) : Prop :=
  values.Perm input ∧ values.Pairwise (fun a b => ltF fields b.2 a.2 = false)

/-- GroupBy.cpp:69-77 -/
def sameF (fields : List Nat) (a b : Tup) : Bool := fields.all fun f => col a f == col b f

/-- `next` with `distinct` from the row after `prev` on (GroupBy.cpp:128-157): rows with the fields of the row before are skipped; the others are returned
once. -/
def nextDistinct (fields : List Nat) : Tup → List Row → List Row
  | _, [] => []
  | prev, r :: l => if sameF fields prev r.2 then nextDistinct fields r.2 l else (1, r.2) :: nextDistinct fields r.2 l

/-- All rows with `distinct` (GroupBy.cpp:80-157).  It is set when the query has no aggregates (PlanGen.cpp:1287). -/
def groupDistinct (fields : List Nat) : List Row → List Row
  | [] => []
  | r :: l => (1, r.2) :: nextDistinct fields r.2 l

/-! ## AggregateHandler -/

/-- The functions (aggrhandler.h:11).  `GROUP_CONCAT` and `SAMPLE` throw (aggrhandler.cpp:154-157) and are left out. -/
inductive Fn
  | count | min | max | sum | avg
  deriving DecidableEq, Repr

/-- The operations on `double` and the conversions that the code uses.  `bits` is the conversion from `double` to `uint64_t` in
`varsToReturn[i].second->value = val` (AggrFunctions.cpp:59). -/
structure Dbl (D : Type) where
  zero : D
  ofInt : Int → D
  add : D → D → D
  divI : D → Int → D
  lt : D → D → Bool
  bits : D → Nat

/-- aggrhandler.h:14 -/
inductive Ty
  | int | dec | symbol | nul
  deriving DecidableEq, Repr

/-- aggrhandler.h:13-20 -/
structure VarValue (D : Type) where
  vInt : Int
  vCount : Nat
  vDec : D
  type : Ty

/-- A call (aggrhandler.h:23-39).  The masks are left out: a call is executed when its input is updated. -/
structure Call (D : Type) where
  id : Fn
  inVar : Nat
  outVar : Nat
  arg1Int : Int
  arg2Int : Int
  arg1Dec : D
  arg1Bool : Bool
  arg2Bool : Bool

/-- aggrhandler.h:34-38 -/
def Call.reset {D : Type} (o : Dbl D) (c : Call D) : Call D :=
  { c with arg1Int := 0, arg2Int := 0, arg1Dec := o.zero, arg1Bool := true, arg2Bool := true }

/-- The fields that calls share (aggrhandler.h:43-48). -/
structure Hdl (D : Type) where
  vars : Nat → VarValue D
  distinct : Fn → Bool
  sets : Fn → List Nat

/-- `varvalues[v] = x` -/
def Hdl.setVar {D : Type} (h : Hdl D) (v : Nat) (x : VarValue D) : Hdl D := { h with vars := fun w => if w = v then x else h.vars w }

/-- The output variable gets an integer. -/
def Hdl.outInt {D : Type} (h : Hdl D) (v : Nat) (x : Int) : Hdl D := h.setVar v { h.vars v with vInt := x, type := .int }

/-- The output variable gets a decimal. -/
def Hdl.outDec {D : Type} (h : Hdl D) (v : Nat) (x : D) : Hdl D := h.setVar v { h.vars v with vDec := x, type := .dec }

/-- aggrhandler.cpp:166-177 -/
def execCount {D : Type} (h : Hdl D) (c : Call D) : Call D × Hdl D :=
  if (h.vars c.inVar).type = .nul then (c, h.outInt c.outVar c.arg1Int)
  else ({ c with arg1Int := c.arg1Int + (if h.distinct c.id then 1 else ((h.vars c.inVar).vCount : Int)) }, h)

/-- The part that `execSum` and `execAvg` share (aggrhandler.cpp:192-208 and 229-244).  Sums do not overflow in the model. -/
def addArg {D : Type} (o : Dbl D) (v : VarValue D) (c : Call D) : Call D :=
  if v.type = .int then
    if c.arg1Bool then { c with arg1Int := c.arg1Int + v.vInt } else { c with arg1Dec := o.add c.arg1Dec (o.ofInt v.vInt) }
  else
    if c.arg1Bool then { c with arg1Bool := false, arg1Dec := o.add (o.ofInt c.arg1Int) v.vDec }
    else { c with arg1Dec := o.add c.arg1Dec v.vDec }

/-- aggrhandler.cpp:179-211 -/
def execSum {D : Type} (o : Dbl D) (h : Hdl D) (c : Call D) : Call D × Hdl D :=
  if (h.vars c.inVar).type = .nul then
    (c, if c.arg1Bool then h.outInt c.outVar c.arg1Int else h.outDec c.outVar c.arg1Dec)
  else (addArg o (h.vars c.inVar) c, h)

/-- aggrhandler.cpp:213-247 -/
def execAvg {D : Type} (o : Dbl D) (h : Hdl D) (c : Call D) : Call D × Hdl D :=
  if (h.vars c.inVar).type = .nul then
    (c, if c.arg2Int = 0 then h.outInt c.outVar 0
        else if c.arg1Bool then h.outInt c.outVar (c.arg1Int.tdiv c.arg2Int) else h.outDec c.outVar (o.divI c.arg1Dec c.arg2Int))
  else (addArg o (h.vars c.inVar) { c with arg2Int := c.arg2Int + 1 }, h)

/-- The common text of `execMax` and `execMin` (aggrhandler.cpp:250-312 and 314-376), which differ in the comparison: `better x y` is `x > y`
for integers, `betterD` for doubles.  The integers are converted when they are compared with a double. -/
def execBest {D : Type} (o : Dbl D) (better : Int → Int → Bool) (betterD : D → D → Bool) (h : Hdl D) (c : Call D) : Option (Call D × Hdl D) :=
  let v := h.vars c.inVar
  if v.type = .nul then
    if c.arg2Bool then none
    else some (c, if c.arg1Bool then h.outInt c.outVar c.arg1Int else h.outDec c.outVar c.arg1Dec)
  else if c.arg2Bool then
    some (if v.type = .int then { c with arg2Bool := false, arg1Bool := true, arg1Int := v.vInt }
          else { c with arg2Bool := false, arg1Bool := false, arg1Dec := v.vDec }, h)
  else
    some (if v.type = .int then
            if c.arg1Bool then (if better v.vInt c.arg1Int then { c with arg1Int := v.vInt } else c)
            else (if betterD (o.ofInt v.vInt) c.arg1Dec then { c with arg1Bool := true, arg1Int := v.vInt } else c)
          else
            if c.arg1Bool then (if betterD v.vDec (o.ofInt c.arg1Int) then { c with arg1Bool := false, arg1Dec := v.vDec } else c)
            else (if betterD v.vDec c.arg1Dec then { c with arg1Dec := v.vDec } else c), h)

/-- The switch of `executeFunction` (aggrhandler.cpp:143-163); `none`: an exception. -/
def execFn {D : Type} (o : Dbl D) (h : Hdl D) (c : Call D) : Option (Call D × Hdl D) :=
  match c.id with
  | .count => some (execCount h c)
  | .sum => some (execSum o h c)
  | .avg => some (execAvg o h c)
  | .min => execBest o (fun x y => decide (x < y)) o.lt h c
  | .max => execBest o (fun x y => decide (x > y)) (fun x y => o.lt y x) h c

/-- `executeFunction` (aggrhandler.cpp:134-164): with DISTINCT a term that was seen is skipped. -/
def execute {D : Type} (o : Dbl D) (h : Hdl D) (c : Call D) : Option (Call D × Hdl D) :=
  if h.distinct c.id ∧ (h.vars c.inVar).type = .symbol then
    if (h.vars c.inVar).vInt.toNat ∈ h.sets c.id then some (c, h)
    else execFn o { h with sets := fun f => if f = c.id then (h.vars c.inVar).vInt.toNat :: h.sets f else h.sets f } c
  else execFn o h c

/-- `stopUpdate` (aggrhandler.cpp:101-114) when no aggregate is the argument of another: then all calls are executed, as the inputs of all of them are
updated together, and the second round executes none. -/
def stopUpdate {D : Type} (o : Dbl D) : Hdl D → List (Call D) → Option (List (Call D) × Hdl D)
  | h, [] => some ([], h)
  | h, c :: cs => (execute o h c).bind fun p => (stopUpdate o p.2 cs).map fun q => (p.1 :: q.1, q.2)

/-! ## AggrFunctions -/

/-- What a value stands for (AggrFunctions.cpp:102-137): an inline number, or the text of a term in the dictionary with a numeric type. -/
inductive Num (D : Type)
  | int (v : Int)
  | dec (d : D)
  | term

/-- The fixed data of the operator: the operations on doubles, what values stand for, the columns of the group variables (`groupKeys`), the input variables
with their columns (`varsToUpdate`) and the output variables (`varsToReturn`). -/
structure AggEnv (D : Type) where
  o : Dbl D
  num : Nat → Num D
  gk : List Nat
  upd : List (Nat × Nat)
  ret : List Nat
  needsNumber : Nat → Bool

/-- `updateVar` (AggrFunctions.cpp:96-139) with `updateVarInt`, `updateVarDec` and `updateVarSymbol` (aggrhandler.cpp:68-93). -/
def updateVar {D : Type} (e : AggEnv D) (h : Hdl D) (var value count : Nat) : Hdl D :=
  if !e.needsNumber var then h.setVar var { h.vars var with vInt := value, vCount := count, type := .symbol }
  else match e.num value with
    | .int v => h.setVar var { h.vars var with vInt := v, vCount := count, type := .int }
    | .dec d => h.setVar var { h.vars var with vDec := d, vCount := count, type := .dec }
    | .term => h.setVar var { h.vars var with vInt := value, vCount := count, type := .symbol }

/-- The loop over `varsToUpdate` for a row (AggrFunctions.cpp:144-146). -/
def updateVars {D : Type} (e : AggEnv D) (h : Hdl D) (regs : Tup) (count : Nat) : Hdl D :=
  e.upd.foldl (fun h p => updateVar e h p.1 (col regs p.2) count) h

/-- The loop with `updateVarNull` (AggrFunctions.cpp:171-173, aggrhandler.cpp:96-100). -/
def updateNulls {D : Type} (e : AggEnv D) (h : Hdl D) : Hdl D :=
  e.upd.foldl (fun h p => h.setVar p.1 { h.vars p.1 with type := .nul }) h

/-- The state of the operator: the registers of the input, `currentCount`, the rows that `child->next()` will return, `currentGroupKeys` and the handler. -/
structure Agg (D : Type) where
  regs : Tup
  cnt : Nat
  rest : List Row
  keys : List Nat
  calls : List (Call D)
  h : Hdl D

/-- A row is added (AggrFunctions.cpp:143-147 and 152-156). -/
def addRow {D : Type} (e : AggEnv D) (a : Agg D) : Option (Agg D) :=
  (stopUpdate e.o (updateVars e a.h a.regs a.cnt) a.calls).map fun p => { a with calls := p.1, h := p.2 }

/-- `sameKeyAsCurrent` (AggrFunctions.cpp:64-71) for at most 255 variables. -/
def sameKey (gk : List Nat) (regs : Tup) (keys : List Nat) : Bool := gk.map (col regs) == keys

/-- `child->next()` and the loop over the rows of the same group (AggrFunctions.cpp:150-158).  At the end `GroupBy` leaves the registers as they are
(GroupBy.cpp:134-137). -/
def groupLoop {D : Type} (e : AggEnv D) : List Row → Agg D → Option (Agg D)
  | [], a => some { a with cnt := 0, rest := [] }
  | r :: l, a =>
    if sameKey e.gk r.2 a.keys then (addRow e { a with regs := r.2, cnt := r.1, rest := l }).bind fun a' => groupLoop e l a'
    else some { a with regs := r.2, cnt := r.1, rest := l }

/-- The exchange of the registers of the group variables and `currentGroupKeys` (AggrFunctions.cpp:161-167). -/
def swapKeys : List Nat → List Nat → Tup → Tup × List Nat
  | g :: gs, k :: ks, t => let p := swapKeys gs ks (t.set g k); (p.1, col t g :: p.2)
  | _, ks, t => (t, ks)

/-- The value of a register for a result (AggrFunctions.cpp:45-62).  For a decimal the number is stored, not the word `uint_val` made of it. -/
def outValue {D : Type} (o : Dbl D) (v : VarValue D) : Nat :=
  if v.type = .int then (v.vInt % (2 ^ 64 : Int)).toNat ||| 0x4000000000000000 else o.bits v.vDec

/-- `processGroup` (AggrFunctions.cpp:141-177): the row of the result - the registers of the group variables and of the aggregates - and the next state. -/
def processGroup {D : Type} (e : AggEnv D) (a : Agg D) : Option (Row × Agg D) :=
  (addRow e a).bind fun a1 => (groupLoop e a1.rest a1).bind fun a2 =>
    let a3 := if a2.cnt ≠ 0 then { a2 with regs := (swapKeys e.gk a2.keys a2.regs).1, keys := (swapKeys e.gk a2.keys a2.regs).2 } else a2
    (stopUpdate e.o (updateNulls e a3.h) a3.calls).map fun p =>
      ((1, e.gk.map (col a3.regs) ++ e.ret.map fun v => outValue e.o (p.2.vars v)),
       { a3 with calls := p.1.map (Call.reset e.o), h := p.2 })

/-- The calls of `next()` until it returns 0 (AggrFunctions.cpp:196-204); `none`: an exception.  The fuel is the number of rows, as every call consumes one. -/
def nexts {D : Type} (e : AggEnv D) : Nat → Agg D → Option (List Row)
  | 0, _ => some []
  | n + 1, a => if a.cnt = 0 then some [] else (processGroup e a).bind fun p => (nexts e n p.2).map fun l => p.1 :: l

/-- The calls of the query after `prepare` (aggrhandler.cpp:32-60): `assignments` is a list of functions, input and output variables. -/
def initCalls {D : Type} (o : Dbl D) (as : List (Fn × Nat × Nat)) : List (Call D) :=
  as.map fun a => { id := a.1, inVar := a.2.1, outVar := a.2.2, arg1Int := 0, arg2Int := 0, arg1Dec := o.zero, arg1Bool := true, arg2Bool := true }

/-- The handler at the start: `varvalues.resize(64)` makes the values 0. -/
def initHdl {D : Type} (o : Dbl D) (distinct : Fn → Bool) : Hdl D :=
  { vars := fun _ => ⟨0, 0, o.zero, .int⟩, distinct := distinct, sets := fun _ => [] }

/-- All rows of `AggrFunctions` over the rows of `GroupBy` (AggrFunctions.cpp:180-204).  `as` are the aggregates of the query; `cols` gives the column of the input of a variable. -/
def aggregate {D : Type} (o : Dbl D) (num : Nat → Num D) (distinct : Fn → Bool) (gk : List Nat) (cols : Nat → Nat) (as : List (Fn × Nat × Nat)) :
    List Row → Option (List Row)
  | [] => some []
  | r :: l =>
    nexts { o := o, num := num, gk := gk, upd := as.map fun a => (a.2.1, cols a.2.1), ret := as.map fun a => a.2.2,
            needsNumber := fun v => as.any fun a => a.2.1 == v && a.1 != .count } (l.length + 1)
      { regs := r.2, cnt := r.1, rest := l, keys := gk.map (col r.2), calls := initCalls o as, h := initHdl o distinct }

end Trident.Sparql
