import Verif.Itr
/-!
# Aggregated tables

In an aggregated table the second column does not have the values, but the coordinates
of the table where they are (/repo/src/trident/iterators/aggritr.cpp,
/repo/include/trident/iterators/aggritr.h).
-/
namespace Trident.Aggr

/-- `Inserter::getCoordinatesForPOS` (/repo/src/trident/kb/inserter.cpp:123-127): strategy,
number of the file and position in one number. The arguments are not negative. -/
def coordinates (strategy file pos : Nat) : Nat :=
  (strategy % 256) * 2 ^ 48 + file * 2 ^ 32 + pos

/-- `AggrItr::strategy` (/repo/include/trident/iterators/aggritr.h:45-47), as the 8 bits of
the `char`. -/
def strategyOf (c : Nat) : Nat := c / 2 ^ 48 % 256

/-- `AggrItr::file` (/repo/include/trident/iterators/aggritr.h:49-51): a `short`, with sign. -/
def fileOf (c : Nat) : Int :=
  if c / 2 ^ 32 % 2 ^ 16 < 2 ^ 15 then (c / 2 ^ 32 % 2 ^ 16 : Nat)
  else ((c / 2 ^ 32 % 2 ^ 16 : Nat) : Int) - 2 ^ 16

/-- `AggrItr::pos` (/repo/include/trident/iterators/aggritr.h:53-55): an `int`, with sign. -/
def posOf (c : Nat) : Int :=
  if c % 2 ^ 32 < 2 ^ 31 then (c % 2 ^ 32 : Nat) else ((c % 2 ^ 32 : Nat) : Int) - 2 ^ 32

/-- The parts of an `AggrItr` that do not change: the iterator of the main table, the
iterators of the second tables, their `moveto`, `getFilePairIterator` with the second
constraint and the coordinates (/repo/src/trident/iterators/aggritr.cpp:29-41; the choice of
the index and the decoded coordinates are part of `opn`), the key, `noSecColumn`, and if
`constraint1` is `NO_CONSTRAINT`. -/
structure Parts (σ τ : Type) where
  M : Itr σ Pair
  mvM : Int → Int → σ → σ
  S : Itr τ Pair
  mvS : Int → Int → τ → τ
  opn : Option Int → Int → τ
  key : Int
  noSec : Bool
  anyFirst : Bool

/-- The fields of an `AggrItr` that change (/repo/include/trident/iterators/aggritr.h:33-41);
`c2` is `constraint2`. -/
structure St (σ τ : Type) where
  m : σ
  sec : Option τ
  v1 : Int
  v2 : Int
  checked : Bool
  n : Bool
  c2 : Option Int

variable {σ τ : Type}

/-- `AggrItr::init` (/repo/src/trident/iterators/aggritr.cpp:172-183); `querier.cpp` opens the
main table without a second constraint. -/
def init (m : σ) : St σ τ := ⟨m, none, -1, -1, false, false, none⟩

/-- `AggrItr::hasNext` (/repo/src/trident/iterators/aggritr.cpp:43-80). -/
def hasNext (P : Parts σ τ) (st : St σ τ) : Bool × St σ τ :=
  if st.checked then (st.n, st) else
  match st.sec with
  | none =>
    let h := P.M.hasNext st.m
    if h.1 then
      let m := P.M.next h.2
      if P.noSec then (true, { st with m := m, n := true, checked := true })
      else
        let g := P.S.hasNext (P.opn st.c2 (P.M.val m).2)
        (g.1, { st with m := m, sec := some (P.S.next g.2), n := g.1, checked := true })
    else (false, { st with m := h.2, n := false, checked := true })
  | some t =>
    let g := P.S.hasNext t
    if g.1 then (true, { st with sec := some (P.S.next g.2), n := true, checked := true })
    else if P.anyFirst then
      let h := P.M.hasNext st.m
      if h.1 then
        let m := P.M.next h.2
        let g := P.S.hasNext (P.opn st.c2 (P.M.val m).2)
        if g.1 then
          (true, { st with m := m, sec := some (P.S.next g.2), n := true, checked := true })
        else (false, { st with m := m, sec := some g.2, n := false, checked := true })
      else (false, { st with m := h.2, sec := none, n := false, checked := true })
    else (false, { st with sec := some g.2, n := false, checked := true })

/-- `AggrItr::next` (/repo/src/trident/iterators/aggritr.cpp:91-96). Reading `secondItr` when
it is null, which is an error in the code, keeps `value2`. -/
def next (P : Parts σ τ) (st : St σ τ) : St σ τ :=
  { st with
    checked := false
    v1 := (P.M.val st.m).1
    v2 := if P.noSec then st.v2 else
      match st.sec with
      | none => st.v2
      | some t => (P.S.val t).2 }

/-- The iterator (/repo/include/trident/iterators/aggritr.h:64-70). -/
def itr (P : Parts σ τ) : Itr (St σ τ) Pair := ⟨hasNext P, next P, fun st => (st.v1, st.v2)⟩

/-- The iterator with `getValue1` and `getCount`
(/repo/src/trident/iterators/aggritr.cpp:82-89); `card` is `getCardinality` of a second
table. -/
def itrCount (P : Parts σ τ) (card : τ → Nat) : Itr (St σ τ) Pair :=
  ⟨hasNext P, next P, fun st => (st.v1, (card (P.opn st.c2 (P.M.val st.m).2) : Int))⟩

/-- Open the second table of the current row of the main table and read its first row
(/repo/src/trident/iterators/aggritr.cpp:155-158). -/
def openFirst (P : Parts σ τ) (c2 : Option Int) (m : σ) : Bool × τ :=
  let g := P.S.hasNext (P.opn c2 (P.M.val m).2)
  if g.1 then (true, P.S.next g.2) else (false, g.2)

/-- The last part of `moveto` (/repo/src/trident/iterators/aggritr.cpp:163-169). -/
def seekSecond (P : Parts σ τ) (c2 : Int) (t : τ) : Bool × τ :=
  let g := P.S.hasNext (P.mvS P.key c2 t)
  if g.1 then (true, P.S.next g.2) else (false, g.2)

/-- `AggrItr::moveto` (/repo/src/trident/iterators/aggritr.cpp:121-170). -/
def moveto (P : Parts σ τ) (c1 c2 : Int) (st : St σ τ) : St σ τ :=
  if c1 < st.v1 ∨ (c1 = st.v1 ∧ (P.noSec = true ∨ c2 ≤ st.v2)) then
    let h := P.M.hasNext (P.mvM st.v1 (P.M.val st.m).2 st.m)
    if h.1 then
      let m := P.M.next h.2
      if P.noSec then { st with m := m, n := true, checked := true }
      else
        let r := match st.sec with
          | none => openFirst P st.c2 m
          | some t => seekSecond P st.v2 t
        { st with m := m, sec := some r.2, n := r.1, checked := true }
    else { st with m := h.2, n := false, checked := true }
  else
    let h := P.M.hasNext (P.mvM c1 0 st.m)
    if h.1 then
      let m := P.M.next h.2
      if (P.M.val m).1 < c1 then { st with m := m, n := false, checked := true }
      else if P.noSec then { st with m := m, n := true, checked := true }
      else
        let r := openFirst P st.c2 m
        if r.1 then
          let r := seekSecond P c2 r.2
          { st with m := m, sec := some r.2, n := r.1, checked := true }
        else { st with m := m, sec := some r.2, n := false, checked := true }
    else { st with m := h.2, n := false, checked := true }

/-- `AggrItr::mark` (/repo/src/trident/iterators/aggritr.cpp:98-100). -/
def mark (markM : σ → σ) (st : St σ τ) : St σ τ := { st with m := markM st.m }

/-- `AggrItr::reset` with 0 (/repo/src/trident/iterators/aggritr.cpp:102-114). -/
def reset (resetM : σ → σ) (st : St σ τ) : St σ τ :=
  { st with m := resetM st.m, sec := none, checked := false }

/-- `AggrItr::setConstraint2` (/repo/include/trident/iterators/aggritr.h:103-107); `setC` is
`setConstraint2` of a second table. -/
def setConstraint2 (setC : Int → τ → τ) (c2 : Int) (st : St σ τ) : St σ τ :=
  { st with c2 := some c2, sec := st.sec.map (setC c2) }

/-- `Querier::get` for aggregated tables (/repo/src/trident/kb/querier.cpp:918-931), with a
second value `v2 ≠ -1`. -/
def get (P : Parts σ τ) (setC : Int → τ → τ) (m : σ) (v1 v2 : Int) : St σ τ :=
  let h := hasNext P (init m)
  if h.1 then moveto P v1 v2 (setConstraint2 setC v2 h.2) else h.2

end Trident.Aggr
