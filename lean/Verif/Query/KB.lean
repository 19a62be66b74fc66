import Verif.Query.Perm
import Verif.Iter.Object
/-!
# The stored graph and the querier

Models `Querier::get`, `Querier::getIterator` and the full scan (`ScanItr`):
/repo/src/trident/kb/querier.cpp:645-685,898-955,995-1080, /repo/src/trident/iterators/scanitr.cpp,
/repo/src/trident/iterators/termitr.cpp.

Not modelled here: aggregated tables (option `aggrIndices`), the differential indices (see Update),
and the substitutes for absent orders (`partial`, `ReOrderItr`).
-/
namespace Trident

/-- Where a table is: the signature byte, and the addresses `TableStorage::getTable` returns for the
file and the mark (tableshandler.cpp:132-158). -/
structure Coord where
  strat : Nat
  start : Nat
  stop : Nat
deriving DecidableEq

/-- kb.h: what the querier reads.  `present` (kb.cpp:86-99) tells which orders are stored; `coords` is the
lookup in the tree (`tree->get`, C30) with, for each order, the table of the term; `files` is, for each
order, the list of its tables by key as the `.idx` files have it (`none`: `files[perm]` is NULL, which is
so when no table of the order was written, kb.cpp:241-250). -/
structure KB where
  mem : Mem
  present : Nat → Bool
  coords : Int → Option (Nat → Option Coord)
  files : Nat → Option (List (Int × Coord))

/-- An argument of a lookup: -1 is no constraint. -/
def optOf (v : Int) : Option Int := if v = -1 then none else some v

/-- querier.cpp:995-1012 `getIterator(perm, key, file, mark, ..)` and 645-685 `initNewIterator`, with constraints or
without any value fixed, for a table that is not aggregated. -/
def KB.openTab (kb : KB) (e : Coord) (v1 v2 : Int) : Obj :=
  match Strat.decode e.strat with
  | some L => Obj.tab kb.mem (Strat.openTab kb.mem e.start e.stop L (optOf v1) (optOf v2))
  | none => Obj.empty

/-- `std::sort` on a vector of pairs, and a bound for the loops over iterators. -/
structure Env where
  sortP : List (Nat × Nat) → List (Nat × Nat)
  sortC : Sorter
  fuel : Nat

/-- querier.cpp:918-955 `get` (not aggregated). -/
def KB.get (kb : KB) (E : Env) (idx : Nat) (cs : Nat → Option Coord) (v1 v2 : Int) : Obj :=
  match cs idx with
  | some e => kb.openTab e v1 v2
  | none =>
    if idx ≥ 3 then
      match cs (idx - 3) with
      | some e => Obj.onReverse E.sortP E.fuel (kb.openTab e (-1) (-1)) v1 v2
      | none => Obj.empty
    else Obj.empty

/-! ## The full scan -/

/-- The open table of a scan: a stored table or the sorted pairs of a reversed one. -/
inductive Src
  | tab (t : Strat.Tab)
  | arr (l : List (Nat × Nat)) (s : Arr.St)

/-- The virtual calls on the open table. -/
def Src.itr (m : Mem) : Itr Src Pair where
  hasNext
    | .tab t => let h := (Strat.Tab.itr m).hasNext t; (h.1, .tab h.2)
    | .arr l s => let h := (Arr.itr l).hasNext s; (h.1, .arr l h.2)
  next
    | .tab t => .tab ((Strat.Tab.itr m).next t)
    | .arr l s => .arr l ((Arr.itr l).next s)
  val
    | .tab t => (Strat.Tab.itr m).val t
    | .arr l s => (Arr.itr l).val s

/-- `moveto` on the open table. -/
def Src.mv (m : Mem) (c1 c2 : Int) : Src → Src
  | .tab t => .tab (Strat.Tab.mv m c1 c2 t)
  | .arr l s => .arr l (Arr.moveto l c1 c2 s)

/-- termitr.cpp:28-70 `TermItr` over the list of tables: the current one and those to come. -/
structure TermSt where
  cur : Int × Coord
  rest : List (Int × Coord)

namespace Scan

/-- scanitr.h:37-52, the fields of `ScanItr`; `cur` is `currentTable` or `reversedItr`, of which at most one is
not NULL. -/
structure St where
  i1 : Option TermSt
  i2 : Option TermSt
  cur : Option Src
  hnc : Bool
  hn : Bool
  key : Int

variable (kb : KB) (E : Env)

/-- A `TermItr` before its first element. -/
def termInit (l : List (Int × Coord)) : TermSt := ⟨(0, ⟨0, 0, 0⟩), l⟩

/-- scanitr.cpp:33-57 `init`.  `none`: without any table for the order the code reads `files[idx - 3]` at a
negative index, or calls a method on NULL later. -/
def init (idx : Nat) : Option St :=
  if idx > 2 then
    match kb.files (idx - 3) with
    | some l2 =>
      let i1 := match kb.files idx with
        | some (e :: r) => some ⟨e, r⟩
        | _ => none
      some ⟨i1, some (termInit l2), none, false, false, 0⟩
    | none => none
  else
    match kb.files idx with
    | some l1 => some ⟨some (termInit l1), none, none, false, false, 0⟩
    | none => none

/-- scanitr.cpp:101-134: move to the next key. -/
def moveKey (s : St) : Bool × St :=
  match s.i2 with
  | some t2 =>
    match t2.rest with
    | e :: r =>
      let i1 := match s.i1 with
        | some t1 =>
          if t1.cur.1 < e.1 then
            match t1.rest with
            | e1 :: r1 => some ⟨e1, r1⟩
            | [] => none
          else some t1
        | none => none
      (true, { s with i1 := i1, i2 := some ⟨e, r⟩, hn := true, hnc := true })
    | [] => (false, { s with hn := false, hnc := true })
  | none =>
    match s.i1 with
    | some t1 =>
      match t1.rest with
      | e :: r => (true, { s with i1 := some ⟨e, r⟩, hn := true, hnc := true })
      | [] => (false, { s with hn := false, hnc := true })
    | none => (false, { s with hn := false, hnc := true })

/-- scanitr.cpp:76-138 `hasNext`. -/
def hasNext (s : St) : Bool × St :=
  if s.hnc then (s.hn, s)
  else match s.cur with
    | some c =>
      let h := (Src.itr kb.mem).hasNext c
      if h.1 then (true, { s with cur := some h.2, hnc := true, hn := true })
      else moveKey { s with cur := none }
    | none => moveKey s

/-- The pairs of a table as `newItrOnReverse` collects them (querier.cpp:1243-1250). -/
def collect (e : Coord) : List Pair :=
  let o := kb.openTab e (-1) (-1)
  drain o.I E.fuel o.s

/-- scanitr.cpp:144-160: the reversed table. -/
def openReversed (e : Coord) : Src :=
  let l := E.sortP (reversed (-1) (collect kb E e))
  .arr l (Arr.init l (-1) (-1))

/-- scanitr.cpp:162-170: the stored table.  (`getBinaryTable` throws on a signature without layout.) -/
def openStored (e : Coord) : Src :=
  match Strat.decode e.strat with
  | some L => .tab (Strat.openTab kb.mem e.start e.stop L none none)
  | none => .arr [] (Arr.init [] (-1) (-1))

/-- Open a table and read its first pair (scanitr.cpp:153-156,171-174; an empty table throws). -/
def first (c : Src) : Src := (Src.itr kb.mem).next ((Src.itr kb.mem).hasNext c).2

/-- scanitr.cpp:140-185 `next`. -/
def next (s : St) : St :=
  match s.cur with
  | some c => { s with cur := some ((Src.itr kb.mem).next c), hnc := false }
  | none =>
    match s.i2, s.i1 with
    | some t2, none => { s with cur := some (first kb (openReversed kb E t2.cur.2)), key := t2.cur.1, hnc := false }
    | some t2, some t1 =>
      if t2.cur.1 ≠ t1.cur.1 then
        { s with cur := some (first kb (openReversed kb E t2.cur.2)), key := t2.cur.1, hnc := false }
      else { s with cur := some (first kb (openStored kb t1.cur.2)), key := t1.cur.1, hnc := false }
    | none, some t1 => { s with cur := some (first kb (openStored kb t1.cur.2)), key := t1.cur.1, hnc := false }
    | none, none => s

/-- The iterator interface: `getKey`, `getValue1`, `getValue2`. -/
def itr : Itr St Row3 where
  hasNext := hasNext kb
  next := next kb E
  val s := (s.key, match s.cur with
    | some c => (Src.itr kb.mem).val c
    | none => (0, 0))

/-- scanitr.cpp:399-407 `moveto`: within the current table only. -/
def moveto (c1 c2 : Int) (s : St) : St := { s with cur := s.cur.map (Src.mv kb.mem c1 c2) }

end Scan

/-! ## Queries -/

/-- An iterator with key: an object of a subclass of `PairItr` read with `getKey`, `getValue1` and
`getValue2`. -/
structure Obj3 where
  σ : Type
  I : Itr σ Row3
  mv : Int → Int → σ → σ
  s : σ

/-- Running the client loop on the object returns `l`. -/
def Obj3.Returns (o : Obj3) (l : List Row3) : Prop := Yields o.I o.s l

/-- An iterator over a table, with `setKey(key)`. -/
def Obj.withKey (o : Obj) (key : Int) : Obj3 where
  σ := o.σ
  I := { hasNext := o.I.hasNext, next := o.I.next, val := fun s => (key, o.I.val s) }
  mv := o.mv
  s := o.s

/-- What `getIterator` does: returns NULL, is undefined, or returns an iterator. -/
inductive QRes
  | null
  | undef
  | itr (o : Obj3)

/-- querier.cpp:1014-1080 `getIterator(idx, s, p, o, cons)` without differential indices, with
constraints.  (`lastKeyQueried` caches the result of the tree lookup.) -/
def KB.getIterator (kb : KB) (E : Env) (idx : Nat) (s p o : Int) : QRes :=
  if kb.present idx ∨ (idx ≥ 3 ∧ kb.present (idx - 3)) then
    let t := permute idx s p o
    if t.1 ≥ 0 then
      match kb.coords t.1 with
      | some cs => .itr ((kb.get E idx cs t.2.1 t.2.2).withKey t.1)
      | none => .itr (Obj.empty.withKey t.1)
    else
      match Scan.init kb idx with
      | some s => .itr { σ := Scan.St, I := Scan.itr kb E, mv := Scan.moveto kb, s := s }
      | none => .undef
  else .null

end Trident
