import Verif.Spec
/-!
# Merging the main iterator with the differential indices

/repo/src/trident/kb/querier.cpp:1080-1195, the part of `Querier::getIterator` that runs when there are updates.  The code has
the two cases `first >= 0` (iterators over the table of one key) and full scan, which differ only in the classes of
the iterators; `Ops` are the calls on them.
-/
namespace Trident.Upd

/-- The calls made on iterators of one kind: `hasNext` (result and the object after it), `new CompositeItr` or `CompositeScanItr` on a
vector of iterators, and `new RmItr`. -/
structure Ops (O : Type 1) where
  hasNext : O → Bool
  probed : O → O
  comp : List O → O
  rm : O → O → O

/-- The variables `iterators` and `out`. -/
structure Acc (O : Type 1) where
  its : List O
  out : O

variable {O : Type 1} (K : Ops O)

/-- querier.cpp:1155-1160: the loop over `iterators[0 .. size - 2]` that stops at the first that has a next element. -/
def probeSome : List O → List O
  | x :: y :: l => if K.hasNext x then K.probed x :: y :: l else K.probed x :: probeSome (y :: l)
  | l => l

/-- querier.cpp:1098-1102 and 1180-1184: `if (out->hasNext()) iterators.push_back(out)`. -/
def withOut (its : List O) (out : O) : List O := if K.hasNext out then its ++ [K.probed out] else its

/-- querier.cpp:1105-1124 and 1185-1204: several iterators are merged, a single one is used as it is.  With none the
code reads `iterators[0]` of an empty vector. -/
def mergeAll : List O → Option O
  | [] => none
  | [x] => some x
  | l => some (K.comp l)

/-- querier.cpp:1089-1177, the body of the loop.  `sec` is `first >= 0 && second >= 0`; `d.1` tells whether the update is an addition, `d.2` is
its iterator (`diffItr`).  `none`: the assertion `!iterators.empty()` fails. -/
def step (sec : Bool) (a : Acc O) (d : Bool × O) : Option (Acc O) :=
  if d.1 then
    let a' : Acc O := if sec then (if K.hasNext a.out then ⟨a.its, K.probed a.out⟩ else ⟨probeSome K a.its, K.probed a.out⟩) else a
    some (if K.hasNext d.2 then ⟨a'.its ++ [K.probed d.2], a'.out⟩ else a')
  else if K.hasNext d.2 then
    match mergeAll K (withOut K a.its a.out) with
    | some m => some ⟨[], K.rm m (K.probed d.2)⟩
    | none => none
  else some a

/-- The loop over `diffIndices`. -/
def run (sec : Bool) : Acc O → List (Bool × O) → Option (Acc O)
  | a, [] => some a
  | a, d :: ds => match step K sec a d with
    | some a' => run sec a' ds
    | none => none

/-- querier.cpp:1178-1209: what is returned. -/
def finish (a : Acc O) : Option O := if a.its.isEmpty then some a.out else mergeAll K (withOut K a.its a.out)

/-- querier.cpp:1080-1209, from the iterator `out` on the stored graph. -/
def merged (sec : Bool) (out : O) (ds : List (Bool × O)) : Option O :=
  match run K sec ⟨[], out⟩ ds with
  | some a => finish K a
  | none => none

end Trident.Upd
