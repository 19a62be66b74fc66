import Verif.Itr
/-!
# `RmItr`: a stream without the deleted elements

/repo/src/trident/iterators/rmitr.cpp and /repo/include/trident/iterators/rmitr.h.

`M` is the iterator `itr`, `R` the iterator `rmitr` over the deletions.  The model covers all uses:
`Mode` says what the comparison looks at (key, first value, second value unless the second column is
ignored) and what happens to equal elements.

The two `while` loops call the underlying iterators, about which nothing is known here; the model
bounds them by `fuel` and every theorem holds for all `fuel` larger than the number of elements.
-/
namespace Trident.Rm

/-- What `cmp` looks at and what happens to equal elements. -/
structure Mode (α : Type) where
  /-- key, first and second value (0 with `noseccol`) of an element of `itr` -/
  km : α → Int × Int × Int
  /-- the same for an element of `rmitr` -/
  kr : α → Int × Int × Int
  /-- rmitr.cpp:85-95: the element that remains of `e` when `r` is deleted from it -/
  sub : α → α → Option α

/-- rmitr.cpp:134-172 `cmp`, with the comparison of the second value always on (it is 0 with
`noseccol`). -/
def cmp (a b : Int × Int × Int) : Int :=
  if a.1 < b.1 then -1
  else if a.1 = b.1 then
    let diff := a.2.1 - b.2.1
    if diff < 0 then -1
    else if diff > 0 then 1
    else
      let diff2 := a.2.2 - b.2.2
      if diff2 < 0 then -1 else if diff2 > 0 then 1 else 0
  else 1

/-- Plain mode for tables of one key: elements are pairs; equal elements are skipped. -/
def plain (keyM keyR : Int) : Mode Pair where
  km p := (keyM, p.1, p.2)
  kr p := (keyR, p.1, p.2)
  sub _ _ := none

/-- Plain mode for scans: elements are (key, first value, second value). -/
def scan : Mode (Int × Int × Int) where
  km p := p
  kr p := p
  sub _ _ := none

/-- Distinct mode (`noseccol`) for tables of one key: elements are (first value, count). -/
def distinct (keyM keyR : Int) : Mode Pair where
  km p := (keyM, p.1, 0)
  kr p := (keyR, p.1, 0)
  sub e r := if e.2 - r.2 > 0 then some (e.1, e.2 - r.2) else none

/-- The fields of `RmItr` (rmitr.h:29-41). `nv` is the element found by `hasNext`: `next` copies the
values of `itr` and `nextCount`, neither of which changes in between. -/
structure St (σ τ α : Type) where
  itr : σ
  rm : τ
  rmValid : Bool
  v : α
  nv : α
  hnc : Bool
  hn : Bool

variable {σ τ α : Type} (M : Itr σ α) (R : Itr τ α) (mode : Mode α) (fuel : Nat)
  (mmv : Int → Int → σ → σ) (rmv : Int → Int → τ → τ)

/-- rmitr.cpp:28-43 `init`; `v0` stands for the initial values (-1). -/
def init (v0 : α) (itr : σ) (rm : τ) : St σ τ α :=
  let h := R.hasNext rm
  { itr := itr, rm := if h.1 then R.next h.2 else h.2, rmValid := h.1, v := v0, nv := v0,
    hnc := false, hn := false }

/-- rmitr.cpp:66-75: move `rmitr` to the first element that is not before `e`; the result says how
the last comparison came out. -/
def advance (e : α) : Nat → τ → τ × Int
  | 0, rm => (rm, cmp (mode.kr (R.val rm)) (mode.km e))
  | n + 1, rm =>
    let c := cmp (mode.kr (R.val rm)) (mode.km e)
    if c < 0 then
      let h := R.hasNext rm
      if h.1 then advance e n (R.next h.2) else (h.2, c)
    else (rm, c)

/-- rmitr.cpp:61-101, the outer loop of `hasNext`. The flag is `valid`. -/
def search : Nat → St σ τ α → Bool × St σ τ α
  | 0, s => (false, s)
  | n + 1, s =>
    let h := M.hasNext s.itr
    if h.1 then
      let itr := M.next h.2
      let e := M.val itr
      if s.rmValid then
        let a := advance R mode e fuel s.rm
        if a.2 < 0 then (true, { s with itr := itr, rm := a.1, rmValid := false, nv := e })
        else if a.2 > 0 then (true, { s with itr := itr, rm := a.1, nv := e })
        else match mode.sub e (R.val a.1) with
          | some x => (true, { s with itr := itr, rm := a.1, nv := x })
          | none => search n { s with itr := itr, rm := a.1 }
      else (true, { s with itr := itr, nv := e })
    else (false, { s with itr := h.2 })

/-- rmitr.cpp:56-105 `hasNext`. -/
def hasNext (s : St σ τ α) : Bool × St σ τ α :=
  if s.hnc then (s.hn, s)
  else
    let r := search M R mode fuel fuel s
    (r.1, { r.2 with hnc := true, hn := r.1 })

/-- rmitr.cpp:107-113 `next`. -/
def next (s : St σ τ α) : St σ τ α := { s with v := s.nv, hnc := false }

/-- rmitr.cpp:45-54 `moveto`. `hnc` is not reset. -/
def moveto (c1 c2 : Int) (s : St σ τ α) : St σ τ α :=
  let h := R.hasNext (rmv c1 c2 s.rm)
  { s with
    itr := mmv c1 c2 s.itr
    rm := if h.1 then R.next h.2 else h.2
    rmValid := if h.1 then s.rmValid else false }

/-- The iterator interface. -/
def itr : Itr (St σ τ α) α where
  hasNext := hasNext M R mode fuel
  next := next
  val s := s.v

end Trident.Rm
