/-!
# Translating the terms of an update

updater.cpp:148-316: the triples of an update are sorted by one column, the terms of the column are translated, and the same is done for
the next column.  A term that is the same as the one before takes its id without a lookup.
-/
namespace Trident.Dict

/-- The bytes of a term. -/
abbrev Text := List UInt8

/-- `UINT64_MAX`: no id. -/
def noId : Nat := 2 ^ 64 - 1

/-- updater.h:66-76: a triple of texts with the ids of its terms. -/
structure TT where
  s : Text
  p : Text
  o : Text
  ns : Nat := 0
  np : Nat := 0
  no : Nat := 0
deriving DecidableEq, Repr

/-- `strncmp`: stops at the first difference, at the end of both texts or after `n` characters. -/
def strncmp : Nat → Text → Text → Ordering
  | n + 1, a :: as, b :: bs => if a < b then .lt else if b < a then .gt else if a = 0 then .eq else strncmp n as bs
  | _, _, _ => .eq

/-- updater.h:99-106. -/
def lessThan (a b : Text) : Bool :=
  match strncmp (min a.length b.length) a b with
  | .lt => true
  | .gt => false
  | .eq => decide (a.length < b.length)

/-- The variables of `compressUpdate` during one loop: the text in `supportbuffer` (its first `supportlen` bytes), `previd`, `nextID` and
`tmpdict`. -/
structure Acc where
  support : Text
  prev : Nat
  next : Nat
  tmp : List (Text × Nat)
deriving DecidableEq, Repr

/-- updater.cpp:178-206 (`useTmp = false`, for subjects) and 214-248, 256-290 (`useTmp = true`, for predicates and objects): one round of
the loop.  An unknown term of a deletion leaves `previd` as it is.  The map `tmpdict` is a list; `insert` does not replace. -/
def step (add useTmp : Bool) (get : Text → Option Nat) (a : Acc) (t : Text) : Nat × Acc :=
  if a.support.length = t.length ∧ t = a.support then (a.prev, a)
  else match get t with
    | some id => (id, { a with support := t, prev := id })
    | none =>
      if add then
        match (if useTmp then a.tmp.lookup t else none) with
        | some id => (id, { a with support := t, prev := id })
        | none =>
          (a.next, { support := t, prev := a.next, next := a.next + 1, tmp := if (a.tmp.lookup t).isSome then a.tmp else a.tmp ++ [(t, a.next)] })
      else (noId, { a with support := t })

/-- The loop over the terms of a column. -/
def pass (add useTmp : Bool) (get : Text → Option Nat) : List Text → Acc → List Nat × Acc
  | [], a => ([], a)
  | t :: ts, a =>
    let r := step add useTmp get a t
    let q := pass add useTmp get ts r.2
    (r.1 :: q.1, q.2)

/-- updater.cpp:292-300: the triples that have three ids. -/
def complete (l : List TT) : List (Nat × Nat × Nat) :=
  (l.filter fun t => decide (t.ns ≠ noId) && decide (t.np ≠ noId) && decide (t.no ≠ noId)).map fun t => (t.ns, t.np, t.no)

/-- updater.cpp:148-300 without the parser of the files before it and without the sorting of the ids, the removal of duplicates and the
comparison with the stored triples after it (`Upd.pending` in Update/Updater.lean).  `srt` is `std::sort` with one of the three
comparisons. -/
def compress (srt : (TT → Text) → List TT → List TT) (add : Bool) (get : Text → Option Nat) (next : Nat) (l : List TT) :
    List (Nat × Nat × Nat) × Acc :=
  let l1 := srt TT.s l
  let r1 := pass add false get (l1.map TT.s) ⟨[], noId, next, []⟩
  let l2 := srt TT.p (List.zipWith (fun t n => { t with ns := n }) l1 r1.1)
  let r2 := pass add true get (l2.map TT.p) { r1.2 with support := [] }
  let l3 := srt TT.o (List.zipWith (fun t n => { t with np := n }) l2 r2.1)
  let r3 := pass add true get (l3.map TT.o) { r2.2 with support := [] }
  (complete (List.zipWith (fun t n => { t with no := n }) l3 r3.1), r3.2)

/-- What `std::sort` guarantees for a strict weak order: the same triples, sorted. -/
structure SortsTT (srt : (TT → Text) → List TT → List TT) : Prop where
  perm : ∀ f l, (srt f l).Perm l
  sorted : ∀ f l, (∀ t ∈ l, (0 : UInt8) ∉ f t) → (srt f l).Pairwise fun a b => lessThan (f b) (f a) = false

end Trident.Dict
