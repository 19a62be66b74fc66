import Verif.Update.Query
import Verif.Query.ReOrder
/-!
# Queries in an order that is not stored, on a graph with updates

/repo/src/trident/kb/querier.cpp:1214-1241 with differential indices: the helper is the merged iterator over SPO.
-/
namespace Trident

/-- The helper over SPO.  A scan merged with an update is a `CompositeScanItr`, `DiffScanItr` or `RmItr`: their `gotoKey` throws
(compositescanitr.cpp:26-28, diffscanitr.cpp:26-28, pairitr.h:98-101).  If no update has a row (querier.cpp:1120-1122,1137-1140,1167-1170), the
scan is the one of the stored graph. -/
def KB.helperU (kb : KB) (E : UEnv) (G : KeySeek) (ds : List Diff3.Diff) (s p o : Int) : Option ReOrder.Helper :=
  if s ≥ 0 ∨ (ds.any fun D => (D.scan 0).hasNext) then
    match kb.getIteratorU E ds 0 s p o with
    | .itr h => some ⟨h.σ, h.I, fun _ _ => none, h.s⟩
    | _ => none
  else
    match Scan.init kb 0 with
    | some st => some ⟨Scan.St, Scan.itr kb E.toEnv, fun k t => some (Scan.gotoKey G k t), st⟩
    | none => none

/-- querier.cpp:1214-1241 `getIterator(idx, s, p, o)` with the updates `ds`, without saved answers. -/
def KB.getIteratorRU (kb : KB) (E : UEnv) (G : KeySeek) (sortK : ReOrder.KeySort) (ds : List Diff3.Diff) (idx : Nat) (s p o : Int) : RRes :=
  match kb.getIteratorU E ds idx s p o with
  | .null =>
    if kb.present 0 then
      match kb.helperU E G ds s p o with
      | some H =>
        match ReOrder.obj E.toEnv sortK H idx p o with
        | some x => .res (.itr x)
        | none => .throws
      | none => .res .undef
    else .res .undef
  | r => .res r

end Trident
