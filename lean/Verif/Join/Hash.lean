/-!
# The hash join

Models `/repo/src/trident/sparql/hashjoinitr.cpp` and `JoinPlan::prepare` of `/repo/src/trident/sparql/joinplan.cpp`.  A result `none` stands for an access
outside of an array, a division by zero, or a key that the hash map reserves.  Names of variables are numbers here: the code only compares them.
Positions are natural numbers: the code keeps them in 8 bits.
-/
namespace Trident.Join

/-- sparqloperators.h:37-70 `SPARQLOperator`: the names of the columns and the rows of its iterator.  None of the operators in the repository supports
sideways information passing. -/
structure Child where
  fields : List Nat
  rows : List (List Nat)

/-! ## The plan -/

/-- joinplan.cpp:288-325, the loop over the columns of a child: the joins (column of the row, column of the child), the columns to copy, and the columns
of the row afterwards. -/
def scanFields (keep : Nat → Bool) : List Nat → Nat → List Nat → List (Nat × Nat) × List Nat × List Nat
  | [], _, cur => ([], [], cur)
  | v :: vs, j, cur =>
    if v ∈ cur then
      let r := scanFields keep vs (j + 1) cur
      ((cur.idxOf v, j) :: r.1, r.2.1, r.2.2)
    else
      let r := scanFields keep vs (j + 1) (cur ++ [v])
      (r.1, (if keep v then j :: r.2.1 else r.2.1), r.2.2)

/-- joinplan.cpp:271-330, the children after the first; of the last one only the projected columns are copied. -/
def planRest (proj : List Nat) : List Child → List Nat → List (List (Nat × Nat) × List Nat) × List Nat
  | [], cur => ([], cur)
  | c :: cs, cur =>
    let r := scanFields (fun v => decide (cs ≠ []) || decide (proj = []) || decide (v ∈ proj)) c.fields 0 cur
    let rs := planRest proj cs r.2.2
    ((r.1, r.2.1) :: rs.1, rs.2)

/-- joinplan.cpp:332-348 `posVarsToReturn`. -/
def retCols (proj cur : List Nat) : List Nat :=
  if proj ≠ [] then (proj.filter fun v => decide (v ∈ cur)).map fun v => cur.idxOf v else List.range cur.length

/-! ## The map -/

/-- `currentMapValues`, the map from keys to positions in it (`currentMap1` or `currentMap2`), and `currentMapRowSize`. -/
structure HMap where
  vals : List Nat
  map : List (List Nat × Nat)
  size : Nat

/-- The key that `set_empty_key` reserves: `UINT64_MAX` in all its parts. -/
def reserved (k : List Nat) : Bool := k.all fun v => v == 2 ^ 64 - 1

/-- `size` values from a position on. -/
def slice (l : List Nat) (size r : Nat) : Option (List Nat) := if r + size ≤ l.length then some ((l.drop r).take size) else none

/-- hashjoinitr.cpp:30-55 `JoinSorter`, `DoubleJoinSorter`. -/
def keyLt : List Nat → List Nat → Bool
  | [a], [b] => decide (a < b)
  | [a, a'], [b, b'] => if a = b then decide (a' < b') else decide (a < b)
  | _, _ => false

/-- The variables of the loop in `fillNextMap`. -/
structure Fill where
  prev : List Nat
  begin : Nat
  vals : List Nat
  map : List (List Nat × Nat)

/-- hashjoinitr.cpp:114-127, 141-157: the entry of the key and the number of its rows. -/
def Fill.shut (size : Nat) (s : Fill) : Option Fill :=
  if size = 0 ∨ reserved s.prev = true then none
  else
    let n := (s.vals.length - s.begin - 1) / size
    some { s with
      map := if s.map.any fun e => e.1 == s.prev then s.map else s.map ++ [(s.prev, s.begin)]
      vals := if n > 1 then s.vals.set s.begin n else s.vals }

/-- hashjoinitr.cpp:103-138, the loop after its first round. -/
def fillLoop (key row : Nat → Option (List Nat)) (size : Nat) : List Nat → Fill → Option Fill
  | [], s => some s
  | r :: rs, s => do
    let k ← key r
    let x ← row r
    let s' ← (if k = s.prev then some s
      else (s.shut size).map fun s1 => { s1 with prev := k, begin := s1.vals.length, vals := s1.vals ++ [1] })
    fillLoop key row size rs { s' with vals := s'.vals ++ x }

/-- hashjoinitr.cpp:58-158 `fillNextMap`.  `fs` are the columns to join on; `srt` is `std::sort`.  More than two columns are not supported (the
assertion is not compiled). -/
def fill (srt : (Nat → List Nat) → List Nat → List Nat) (fs : List Nat) (size : Nat) (tmp idx : List Nat) : Option HMap :=
  if fs.length = 1 ∨ fs.length = 2 then
    let key := fun r => fs.mapM fun f => tmp[r + f]?
    match srt (fun r => (key r).getD []) idx with
    | [] => none
    | r :: rs => do
      let k ← key r
      let x ← slice tmp size r
      let s ← fillLoop key (slice tmp size) size rs ⟨k, 0, 1 :: x, []⟩
      let s ← s.shut size
      some ⟨s.vals, s.map, size⟩
  else none

/-- hashjoinitr.cpp:244-268, 318-341: the rows with a key. -/
def probe (m : HMap) (k : List Nat) : Option (List (List Nat)) :=
  if reserved k then none
  else match m.map.lookup k with
    | none => some []
    | some b => (m.vals[b]?).bind fun n => (List.range n).mapM fun i => slice m.vals m.size (b + 1 + i * m.size)

/-! ## The join -/

/-- hashjoinitr.cpp:239-289: the rows of a child that is not the last, joined into `tmpContainer` and `idxRows`. -/
def joinInto (m : HMap) (js : List (Nat × Nat)) (cp : List Nat) : List (List Nat) → List Nat × List Nat → Option (List Nat × List Nat)
  | [], t => some t
  | r :: rs, t => do
    let k ← js.mapM fun j => r[j.2]?
    let ms ← probe m k
    let c ← cp.mapM fun p => r[p]?
    joinInto m js cp rs (ms.foldl (fun t x => (t.1 ++ (x ++ c), t.2 ++ [t.1.length])) t)

/-- hashjoinitr.cpp:221-230: the rows of the first child. -/
def copyFirst (n : Nat) : List (List Nat) → List Nat × List Nat → Option (List Nat × List Nat)
  | [], t => some t
  | r :: rs, t => do
    let c ← (List.range n).mapM fun p => r[p]?
    copyFirst n rs (t.1 ++ c, t.2 ++ [t.1.length])

/-- hashjoinitr.cpp:342-357: one column of the output. -/
def outCol (size : Nat) (cp x r : List Nat) (i : Nat) : Option Nat :=
  if i < size then x[i]? else (cp[i - size]?).bind fun p => r[p]?

/-- hashjoinitr.cpp:301-358: the rows of the last child. -/
def joinLast (m : HMap) (js : List (Nat × Nat)) (cp ret : List Nat) : List (List Nat) → Option (List (List Nat))
  | [] => some []
  | r :: rs => do
    let k ← js.mapM fun j => r[j.2]?
    let ms ← (if js.length = 1 ∨ js.length = 2 then probe m k else none)
    let o ← ms.mapM fun x => ret.mapM (outCol m.size cp x r)
    let os ← joinLast m js cp ret rs
    some (o ++ os)

/-- hashjoinitr.cpp:179-362, the children after the first. -/
def execRest (srt : (Nat → List Nat) → List Nat → List Nat) (ret : List Nat) :
    List Child → List (List (Nat × Nat) × List Nat) → List Nat × List Nat → Nat → Option (List (List Nat))
  | c :: cs, (js, cp) :: ps, t, size =>
    if t.2 = [] then some []
    else do
      let m ← fill srt (js.map Prod.fst) size t.1 t.2
      if cs = [] then joinLast m js cp ret c.rows
      else
        let t' ← joinInto m js cp c.rows ([], [])
        execRest srt ret cs ps t' (size + cp.length)
  | _, _, _, _ => none

/-- hashjoinitr.cpp:175-380 `execJoin` and the iterator: the rows that are returned. -/
def hashJoin (srt : (Nat → List Nat) → List Nat → List Nat) (cs : List Child) (proj : List Nat) : Option (List (List Nat)) :=
  match cs with
  | [] => none
  | c :: cs =>
    let p := planRest proj cs c.fields
    (copyFirst c.fields.length c.rows ([], [])).bind fun t => execRest srt (retCols proj p.2) cs p.1 t c.fields.length

end Trident.Join
