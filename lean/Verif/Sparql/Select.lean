import Verif.Sparql.Aggr
/-!
# FILTER conditions

Model of /repo/rdf3x/src/rts/Selection.cpp (`Result`, the predicates and `Selection`) and of /repo/rdf3x/src/rts/Filter.cpp, with the choice between the two in
/repo/rdf3x/src/cts/CodeGen.cpp:721-776.  Not modelled: arithmetic, `regex` (always false in the code), `replace`, calls of functions, `NOT EXISTS`, `langMatches`
and conditions over aggregates.
-/
namespace Trident.Sparql.Select

/-- Bytes of a `std::string`. -/
abbrev Text := List Nat

/-- What the code does outside of its normal results: an exception, or a read of a variable that was never set. -/
inductive Err
  | exception
  | undefined
  deriving DecidableEq

/-- `Type::ID`, as far as it occurs. -/
inductive Ty
  | uri
  | literal
  | boolean
  deriving DecidableEq

/-- Numbers are read from texts by the C library, and floating point numbers have their own comparison: both are parameters.
`getLong`, `getDouble`, `getTime` (Selection.cpp:34-70): no result means an exception. -/
structure Lib (F : Type) where
  getLong : Text → Option Int
  getDouble : Text → Option F
  getTime : Text → Option Int
  ltF : F → F → Bool
  ofInt : Int → F
  /-- the bits of the number as a `float`, in the lower half of a word (Selection.cpp:412-416) -/
  bits : F → Nat
  /-- `DictMgmt::compare` when a number is a float (/repo/include/trident/kb/dictmgmt.h:258-287) -/
  compareF : Nat → Nat → Nat → Nat → Int

/-- `dict->getText` (/repo/src/trident/kb/dictmgmt.cpp:199-218). -/
abbrev Dict := Nat → Option Text

/-- Selection.cpp:72-77 -/
def endsWith (s suffix : Text) : Bool := decide (suffix.length ≤ s.length) && decide (s.drop (s.length - suffix.length) = suffix)

inductive NumType
  | int
  | decimal
  | date
  | unknown
  deriving DecidableEq

/-- `^^<http://www.w3.org/2001/XMLSchema#` -/
def xsd : Text :=
  [94, 94, 60, 104, 116, 116, 112, 58, 47, 47, 119, 119, 119, 46, 119, 51, 46, 111, 114, 103, 47, 50, 48, 48, 49, 47, 88, 77, 76, 83, 99, 104, 101, 109, 97, 35]

def double : Text := xsd ++ [100, 111, 117, 98, 108, 101, 62]
def float : Text := xsd ++ [102, 108, 111, 97, 116, 62]
def integer : Text := xsd ++ [105, 110, 116, 101, 103, 101, 114, 62]
def dateTime : Text := xsd ++ [100, 97, 116, 101, 84, 105, 109, 101, 62]
def date : Text := xsd ++ [100, 97, 116, 101, 62]

/-- Selection.cpp:79-95 (`DATE` and `DATETIME` differ only in how the text is read). -/
def numType (s : Text) : NumType :=
  if endsWith s double || endsWith s float then .decimal
  else if endsWith s integer then .int
  else if endsWith s dateTime then .date
  else if endsWith s date then .date
  else .unknown

/-- `IdValue`: `val.dv` or `val.iv`. -/
inductive NumVal (F : Type)
  | int (i : Int)
  | dec (f : F)

/-- The number of a text, if it has one (Selection.cpp:102-119). -/
def numVal {F : Type} (P : Lib F) (s : Text) : Except Err (Option (NumVal F)) :=
  match numType s with
  | .decimal => match P.getDouble s with | some f => .ok (some (.dec f)) | none => .error .exception
  | .int => match P.getLong s with | some i => .ok (some (.int i)) | none => .error .exception
  | .date => match P.getTime s with | some i => .ok (some (.int i)) | none => .error .exception
  | .unknown => .ok none

/-- `runtime.valueMap`: the numbers of ids that were compared before. -/
abbrev Cache (F : Type) := Nat → Option (NumVal F)

/-- `Selection::Result` with its flags. -/
structure Res where
  id : Option Nat := none
  str : Option Text := none
  ty : Option Ty := none
  bool : Option Bool := none
  deriving DecidableEq

/-- `setId`, `setBoolean`, `setLiteral`, `setIRI` (Selection.cpp:225-254). -/
def Res.ofId (i : Nat) : Res := { id := some i }
def Res.ofBool (b : Bool) : Res := { ty := some .boolean, bool := some b }
def Res.ofLiteral (s : Text) : Res := { str := some s, ty := some .literal }
def Res.ofIRI (s : Text) : Res := { str := some s, ty := some .uri }

/-- `lookupById` (/repo/src/layers/TridentLayer.cpp:86-111): the text without the brackets of an IRI. -/
def lookupById (dict : Dict) (i : Nat) : Option (Text × Ty) :=
  (dict i).map fun t => if t.head? = some 60 then ((t.drop 1).take (t.length - 2), .uri) else (t, .literal)

/-- "NULL", "true", "false" -/
def sNULL : Text := [78, 85, 76, 76]
def sTrue : Text := [116, 114, 117, 101]
def sFalse : Text := [102, 97, 108, 115, 101]

/-- The text and the type of an id; `~id` is 0 for the greatest 64 bit number. -/
def textOf (dict : Dict) (i : Nat) : Option (Text × Ty) := if i = 2 ^ 64 - 1 then none else lookupById dict i

/-- Selection.cpp:149-171 -/
def ensureString (dict : Dict) (r : Res) : Res :=
  match r.str with
  | some _ => r
  | none =>
    match r.id with
    | some i =>
      match textOf dict i with
      | some (t, ty) => { r with str := some t, ty := some ty }
      | none => { r with str := some sNULL }
    | none =>
      match r.bool with
      | some b => { r with str := some (if b then sTrue else sFalse) }
      | none => { r with str := some [] }

/-- `value` -/
def Res.value (r : Res) : Text := r.str.getD []

/-- Selection.cpp:173-192 -/
def ensureType (dict : Dict) (r : Res) : Res :=
  match r.ty with
  | some _ => r
  | none =>
    match r.id with
    | some i =>
      match textOf dict i with
      | some (t, ty) => { r with str := some t, ty := some ty }
      | none => { r with ty := some .literal }
    | none => { r with ty := some (if r.bool.isSome then .boolean else .literal) }

/-- Selection.cpp:215-223 and 273-280 -/
def truth (dict : Dict) (r : Res) : Bool :=
  match r.bool with
  | some b => b
  | none => (ensureString dict r).value == sTrue

/-- `Selection::numeric` (Selection.cpp:97-122). -/
def numeric {F : Type} (P : Lib F) (dict : Dict) (v : Res) (c : Cache F) : Except Err (Bool × Res × Cache F) :=
  match v.id with
  | none => .ok (false, v, c)
  | some i =>
    match c i with
    | some _ => .ok (true, v, c)
    | none =>
      match numVal P (ensureString dict v).value with
      | .error e => .error e
      | .ok none => .ok (false, ensureString dict v, c)
      | .ok (some n) => .ok (true, ensureString dict v, fun j => if j = i then some n else c j)

/-- `isNumericComparison` (Selection.cpp:124-126): the second value is not looked at if the first one is no number. -/
def bothNumeric {F : Type} (P : Lib F) (dict : Dict) (l r : Res) (c : Cache F) : Except Err (Bool × Res × Res × Cache F) :=
  match numeric P dict l c with
  | .error e => .error e
  | .ok (false, l', c') => .ok (false, l', r, c')
  | .ok (true, l', c') =>
    match numeric P dict r c' with
    | .error e => .error e
    | .ok (b, r', c'') => .ok (b, l', r', c'')

/-- `numLess` (Selection.cpp:128-142). -/
def numLess {F : Type} (P : Lib F) : NumVal F → NumVal F → Bool
  | .int a, .int b => decide (a < b)
  | .int a, .dec b => P.ltF (P.ofInt a) b
  | .dec a, .int b => P.ltF a (P.ofInt b)
  | .dec a, .dec b => P.ltF a b

/-- The entries of `valueMap` for two ids. -/
def cachedLess {F : Type} (P : Lib F) (c : Cache F) (l r : Res) : Bool :=
  match l.id.bind c, r.id.bind c with
  | some a, some b => numLess P a b
  | _, _ => false

/-- Comparison of texts, byte by byte (`std::string::operator<`). -/
def textLess : Text → Text → Bool
  | _, [] => false
  | [], _ :: _ => true
  | a :: s, b :: t => decide (a < b) || (a == b && textLess s t)

/-- /repo/include/trident/kb/dictmgmt.h:213-216 and 237-240 -/
def isnumeric (t : Nat) : Bool := t / 2 ^ 62 % 4 != 0
def typeInt : Nat := 0x4000000000000000
def typeFloat : Nat := 0x8000000000000000
def getType (t : Nat) : Nat := t / 2 ^ 62 % 4 * 2 ^ 62

/-- `DictMgmt::compare` (/repo/include/trident/kb/dictmgmt.h:246-288). -/
def compare {F : Type} (P : Lib F) (t1 n1 t2 n2 : Nat) : Int :=
  if t1 = typeInt ∧ t2 = typeInt then
    if n1 % 2 ^ 62 < n2 % 2 ^ 62 then -1 else if n1 % 2 ^ 62 > n2 % 2 ^ 62 then 1 else 0
  else P.compareF t1 n1 t2 n2

/-- A text that is compared with a number in an id (Selection.cpp:403-417, and 422-436 for the left side): its type and its value as a word. -/
def wordOf {F : Type} (P : Lib F) (s : Text) : Except Err (Nat × Nat) :=
  if numType s = .decimal then match P.getDouble s with | some f => .ok (typeFloat, P.bits f) | none => .error .exception
  else match P.getLong s with | some i => .ok (typeInt, (i % 2 ^ 64).toNat) | none => .error .exception

/-- The common text of `Less` and `LessOrEqual` (Selection.cpp:384-443 and 451-522).  They differ in the tests (`byNum`, `byText`, `byCmp`), and in that `Less` asks
twice for the text of the right side and not for the one of the left side (`leftText`). -/
def order {F : Type} (P : Lib F) (dict : Dict) (leftText : Bool) (byNum : Cache F → Res → Res → Bool) (byText : Text → Text → Bool) (byCmp : Int → Bool)
    (l r : Res) (c : Cache F) : Except Err (Bool × Cache F) :=
  match l.id, r.id with
  | some i, some j =>
    if !isnumeric i && !isnumeric j then
      match bothNumeric P dict l r c with
      | .error e => .error e
      | .ok (true, l', r', c') => .ok (byNum c' l' r', c')
      | .ok (false, l', r', c') => .ok (byText (if leftText then (ensureString dict l').value else l'.value) (ensureString dict r').value, c')
    else if isnumeric i && !isnumeric j then
      match wordOf P (ensureString dict r).value with
      | .error e => .error e
      | .ok (t, v) => .ok (byCmp (compare P (getType i) i t v), c)
    else if !isnumeric i && isnumeric j then
      match wordOf P (ensureString dict l).value with
      | .error e => .error e
      | .ok (t, v) => .ok (byCmp (compare P t v (getType j) j), c)
    else .ok (byCmp (compare P (getType i) i (getType j) j), c)
  | _, _ => .error .undefined

def less {F : Type} (P : Lib F) (dict : Dict) : Res → Res → Cache F → Except Err (Bool × Cache F) :=
  order P dict false (fun c l r => cachedLess P c l r) textLess (fun x => decide (x < 0))

def lessOrEqual {F : Type} (P : Lib F) (dict : Dict) : Res → Res → Cache F → Except Err (Bool × Cache F) :=
  order P dict true (fun c l r => !cachedLess P c r l) (fun s t => !textLess t s) (fun x => decide (x ≤ 0))

/-- `Equal` (Selection.cpp:334-351); `NotEqual` is its negation (Selection.cpp:359-376). -/
def equal (dict : Dict) (l r : Res) : Bool :=
  match l.id, r.id with
  | some i, some j => i == j
  | _, _ => (ensureString dict l).value == (ensureString dict r).value

/-- `BuiltinSameTerm` (Selection.cpp:908-931); no type has a subtype. -/
def sameTerm (dict : Dict) (l r : Res) : Bool :=
  match l.id, r.id with
  | some i, some j => i == j
  | _, _ => decide ((ensureType dict l).ty = (ensureType dict r).ty)
      && (ensureString dict (ensureType dict l)).value == (ensureString dict (ensureType dict r)).value

/-- `std::string::find` with a result. -/
def contains (s t : Text) : Bool :=
  match s with
  | [] => t.isEmpty
  | a :: s' => t.isPrefixOf (a :: s') || contains s' t

/-- The conditions (`QueryGraph::Filter` after semantic analysis).  A constant has the id that the dictionary has for it, and what is written in the query
(/repo/rdf3x/src/cts/SemanticAnalysis.cpp:378-426).  `nil` and `arg` are the arguments of `IN`. -/
inductive Expr
  | var (x : Nat)
  | lit (id : Option Nat) (value : Text)
  | iri (id : Option Nat) (value : Text)
  | null
  | or (a b : Expr)
  | and (a b : Expr)
  | not (a : Expr)
  | eq (a b : Expr)
  | ne (a b : Expr)
  | lt (a b : Expr)
  | le (a b : Expr)
  | gt (a b : Expr)
  | ge (a b : Expr)
  | str (a : Expr)
  | datatype (a : Expr)
  | bound (x : Nat)
  | sameTerm (a b : Expr)
  | isIRI (a : Expr)
  | isBlank (a : Expr)
  | isLiteral (a : Expr)
  | contains (a b : Expr)
  | isIn (a args : Expr)
  | nil
  | arg (a rest : Expr)

/-- `output.id`, which is `unsigned` (/repo/rdf3x/include/cts/infra/QueryGraph.hpp:75): the id of a constant is cut to 32 bits; a constant without id has `~0u`. -/
def id32 : Option Nat → Nat
  | some i => i % 2 ^ 32
  | none => 0xFFFFFFFF

/-- A constant (CodeGen.cpp:511-527): without id it is the text that is written in the query. -/
def constant (isIri : Bool) (id : Option Nat) (value : Text) : Res :=
  if id32 id = 0xFFFFFFFF then (if isIri then .ofIRI value else .ofLiteral value) else .ofId (id32 id)

/-- `http://www.w3.org/2001/XMLSchema#string` -/
def xsdString : Text := (xsd.drop 3) ++ [115, 116, 114, 105, 110, 103]

/-- `check` of a condition with the result `r`: a literal that is not in the dictionary is always true (Selection.cpp:694-696). -/
def checked (dict : Dict) (e : Expr) (r : Res) : Bool :=
  match e with
  | .lit id _ => if id32 id = 0xFFFFFFFF then true else truth dict r
  | _ => truth dict r

/-- One comparison of `IN` (Selection.cpp:1117-1129). -/
def member (dict : Dict) (p c : Res) : Bool :=
  match p.id, c.id with
  | some i, some j => i == j
  | _, _ => (ensureString dict p).value == (ensureString dict c).value

mutual
/-- `eval` for a row: `R` are the registers of the variables.  The second result is the new `valueMap`.  In the order of the constructors: Selection.cpp:676, 688, 716,
652, 310, 322, 610, 334, 359, 384, 451 (twice each, with exchanged arguments for `>` and `>=`: CodeGen.cpp:493-496), 755, 852, 896, 908, 939, 954, 974, 829, 1108. -/
def eval {F : Type} (P : Lib F) (dict : Dict) (R : Nat → Nat) : Expr → Cache F → Except Err (Res × Cache F)
  | .var x, c => .ok (.ofId (R x), c)
  | .lit id v, c => .ok (constant false id v, c)
  | .iri id v, c => .ok (constant true id v, c)
  | .null, c => .ok (.ofId 0xFFFFFFFF, c)
  | .or a b, c => do
    let (l, c) ← eval P dict R a c
    if checked dict a l then .ok (.ofBool true, c)
    else
      let (r, c) ← eval P dict R b c
      .ok (.ofBool (checked dict b r), c)
  | .and a b, c => do
    let (l, c) ← eval P dict R a c
    if checked dict a l then
      let (r, c) ← eval P dict R b c
      .ok (.ofBool (checked dict b r), c)
    else .ok (.ofBool false, c)
  | .not a, c => do
    let (l, c) ← eval P dict R a c
    .ok (.ofBool (!checked dict a l), c)
  | .eq a b, c => do
    let (l, c) ← eval P dict R a c
    let (r, c) ← eval P dict R b c
    .ok (.ofBool (equal dict l r), c)
  | .ne a b, c => do
    let (l, c) ← eval P dict R a c
    let (r, c) ← eval P dict R b c
    .ok (.ofBool (!equal dict l r), c)
  | .lt a b, c => do
    let (l, c) ← eval P dict R a c
    let (r, c) ← eval P dict R b c
    let (x, c) ← less P dict l r c
    .ok (.ofBool x, c)
  | .le a b, c => do
    let (l, c) ← eval P dict R a c
    let (r, c) ← eval P dict R b c
    let (x, c) ← lessOrEqual P dict l r c
    .ok (.ofBool x, c)
  | .gt a b, c => do
    let (l, c) ← eval P dict R b c
    let (r, c) ← eval P dict R a c
    let (x, c) ← less P dict l r c
    .ok (.ofBool x, c)
  | .ge a b, c => do
    let (l, c) ← eval P dict R b c
    let (r, c) ← eval P dict R a c
    let (x, c) ← lessOrEqual P dict l r c
    .ok (.ofBool x, c)
  | .str a, c => do
    let (l, c) ← eval P dict R a c
    .ok ({ ensureString dict l with ty := some .literal }, c)
  | .datatype a, c => do
    -- the type that is tested is the one of an empty result (Selection.cpp:855-857)
    let (_, c) ← eval P dict R a c
    .ok (.ofLiteral xsdString, c)
  | .bound x, c => .ok (.ofBool (decide (R x ≠ 2 ^ 64 - 1)), c)
  | .sameTerm a b, c => do
    let (l, c) ← eval P dict R a c
    let (r, c) ← eval P dict R b c
    .ok (.ofBool (Select.sameTerm dict l r), c)
  | .isIRI a, c => do
    let (l, c) ← eval P dict R a c
    .ok (.ofBool (decide ((ensureType dict l).ty = some .uri)), c)
  | .isBlank a, c => do
    let (l, c) ← eval P dict R a c
    let l := ensureType dict l
    .ok (.ofBool (if l.ty ≠ some .uri then false else decide ((ensureString dict l).value.take 2 = [95, 58])), c)
  | .isLiteral a, c => do
    let (l, c) ← eval P dict R a c
    .ok (.ofBool (decide ((ensureType dict l).ty ≠ some .uri)), c)
  | .contains a b, c => do
    let (l, c) ← eval P dict R a c
    let (r, c) ← eval P dict R b c
    .ok (.ofBool (Select.contains (ensureString dict l).value (ensureString dict r).value), c)
  | .isIn a args, c => do
    let (p, c) ← eval P dict R a c
    let (x, c) ← evalIn P dict R p args c
    .ok (.ofBool x, c)
  | .nil, c => .ok ({}, c)
  | .arg _ _, c => .ok ({}, c)

/-- The loop of `BuiltinIn::eval` (Selection.cpp:1115-1131). -/
def evalIn {F : Type} (P : Lib F) (dict : Dict) (R : Nat → Nat) (p : Res) : Expr → Cache F → Except Err (Bool × Cache F)
  | .arg a rest, c => do
    let (q, c) ← eval P dict R a c
    if member dict p q then .ok (true, c) else evalIn P dict R p rest c
  | _, c => .ok (false, c)
end

/-- `check` -/
def check {F : Type} (P : Lib F) (dict : Dict) (R : Nat → Nat) (e : Expr) (c : Cache F) : Except Err (Bool × Cache F) := do
  let (r, c) ← eval P dict R e c
  .ok (checked dict e r, c)

/-- `Selection` (Selection.cpp:1224-1258): the rows for which the condition is true.  `regs` gives the registers for a row. -/
def selection {F : Type} (P : Lib F) (dict : Dict) (regs : Tup → Nat → Nat) (e : Expr) : List Row → Cache F → Except Err (List Row)
  | [], _ => .ok []
  | r :: rows, c => do
    let (b, c) ← check P dict (regs r.2) e c
    let rest ← selection P dict regs e rows c
    .ok (if b then r :: rest else rest)

/-- The constructor of `Filter` (Filter.cpp:14-33) and the test of a value (Filter.cpp:62-72, 86-104): `valid` is a table for the values from the smallest to the
greatest one. -/
def passes (values : List Nat) (exclude : Bool) (v : Nat) : Bool :=
  let inside := match values with
    | [] => false
    | w :: ws =>
      let min := ws.foldl (fun m x => if x < m then x else m) w
      let max := ws.foldl (fun m x => if x > m then x else m) w
      decide (min ≤ v) && decide (v ≤ max) && (values.map (· - min)).contains (v - min)
  if exclude then !inside else inside

/-- `Filter::first` and `next`: the rows whose value in `filter` passes. -/
def filterRows (values : List Nat) (exclude : Bool) (regs : Tup → Nat → Nat) (x : Nat) (rows : List Row) : List Row :=
  rows.filter fun r => passes values exclude (regs r.2 x)

/-- The constants of an argument list (CodeGen.cpp:753-764); none if an argument is no constant. -/
def constants : Expr → Option (List Nat)
  | .arg (.lit id _) rest => (constants rest).map (id32 id :: ·)
  | .arg (.iri id _) rest => (constants rest).map (id32 id :: ·)
  | .arg _ _ => none
  | _ => some []

/-- The special cases of `translateFilter` (CodeGen.cpp:738-769): the register, the values and whether they are excluded. -/
def special : Expr → Option (Nat × List Nat × Bool)
  | .eq (.var x) (.lit id _) => some (x, [id32 id], false)
  | .eq (.var x) (.iri id _) => some (x, [id32 id], false)
  | .ne (.var x) (.lit id _) => some (x, [id32 id], true)
  | .ne (.var x) (.iri id _) => some (x, [id32 id], true)
  | .eq (.lit id _) (.var x) => some (x, [id32 id], false)
  | .eq (.iri id _) (.var x) => some (x, [id32 id], false)
  | .ne (.lit id _) (.var x) => some (x, [id32 id], true)
  | .ne (.iri id _) (.var x) => some (x, [id32 id], true)
  | .isIn (.var x) args => (constants args).map fun l => (x, l, false)
  | _ => none

/-- `FILTER` over the rows of its input (CodeGen.cpp:721-776).  The effect of `Filter` on domains is not modelled here. -/
def runFilter {F : Type} (P : Lib F) (dict : Dict) (regs : Tup → Nat → Nat) (e : Expr) (rows : List Row) (c : Cache F) : Except Err (List Row) :=
  match special e with
  | some (x, values, exclude) => .ok (filterRows values exclude regs x rows)
  | none => selection P dict regs e rows c

end Trident.Sparql.Select
