import Verif.Query.Distinct
/-!
# Reading only the first column

A client that calls `ignoreSecondColumn` and never `getCount`, on the iterator for a key (querier.cpp:918-955,1014-1080).  On tables `getCount` only reads a field, so this is the iterator of
`KB.getD`; on rebuilt tables `getCount` moves the iterator (arrayitr.cpp:70-87), and without it `hasNext` skips the equal values (arrayitr.cpp:39-45).
-/
namespace Trident

/-- `ArrayItr` after `init(values, -1, -1)` and `ignoreSecondColumn`, read with `getValue1` only. -/
def Obj.arrayA (l : List (Nat × Nat)) : Obj where
  σ := Arr.St
  I := Arr.itr l
  mv := Arr.moveto l
  s := Arr.ignoreSecondColumn (Arr.init l (-1) (-1))

/-- `newItrOnReverse` (querier.cpp:1243-1263), then `ignoreSecondColumn`. -/
def Obj.onReverseA (sort : List (Nat × Nat) → List (Nat × Nat)) (fuel : Nat) (old : Obj) : Obj :=
  let tmp := reversed (-1) (drain old.I fuel old.s)
  if tmp.length > 0 then Obj.arrayA (sort tmp) else Obj.empty

/-- `Querier::get` (querier.cpp:918-955) without fixed values, then `ignoreSecondColumn`. -/
def KB.getA (kb : KB) (E : Env) (idx : Nat) (cs : Nat → Option Coord) : Obj :=
  match cs idx with
  | some e => kb.openTabD e (-1) (-1)
  | none =>
    if idx ≥ 3 then
      match cs (idx - 3) with
      | some e => Obj.onReverseA E.sortP E.fuel (kb.openTab e (-1) (-1))
      | none => Obj.empty
    else Obj.empty

/-- `getPermuted(idx, key, -1, -1)` (querier.cpp:689-707,1014-1080, without differential indices) for a key, then `ignoreSecondColumn`. -/
def KB.getKeyA (kb : KB) (E : Env) (idx : Nat) (key : Int) : QRes :=
  if kb.present idx ∨ (idx ≥ 3 ∧ kb.present (idx - 3)) then
    match kb.coords key with
    | some cs => .itr ((kb.getA E idx cs).withKey key)
    | none => .itr (Obj.empty.withKey key)
  else .null

end Trident
