import Verif.Itr
/-!
# Tables of tuples (/repo/src/trident/model/table.cpp, /repo/include/trident/model/table.h)

A table keeps its values in one vector, row after row; here it is a list of rows.  Not modelled: tables filled with `addValue` to a partial row, and rows
wider than 255 columns (`uint8_t` column numbers).
-/
namespace Trident.Join.Table
open Trident

abbrev Row := List Nat

/-- `TupleTable` (table.h:35-39): names of the columns, rows, and the flag `empty`. -/
structure Tab where
  sig : List Nat
  size : Nat
  rows : List Row
  empty : Bool

/-- `TupleTable(sig)` followed by `addRow` for each row (table.h:87-88, 113-118). -/
def Tab.make (sig : List Nat) (rows : List Row) : Tab := ⟨sig, sig.length, rows, rows.isEmpty⟩

/-- Well-formed: rows as wide as the names say, names different, flag as `addRow` sets it. -/
structure Tab.Ok (t : Tab) : Prop where
  nodup : t.sig.Nodup
  size : t.size = t.sig.length
  rows : ∀ r ∈ t.rows, r.length = t.sig.length

/-- `TupleTable::cmp` on the compared fields of two rows (table.cpp:557-578), `-1`, `1`, `0` as an ordering. -/
def cmpL : List Nat → List Nat → Ordering
  | a :: r, b :: s => if a < b then .lt else if b < a then .gt else cmpL r s
  | _, _ => .eq

/-- The fields of a row at some positions. -/
def pick (ps : List Nat) (r : Row) : List Nat := ps.map fun p => r.getD p 0

/-! ## Union and difference (table.cpp:116-229) -/

/-- The row in the buffer, or the next one, which is then read into it (`toRead1`, `readArray`; table.cpp:186-193). -/
def nextRow (h : Option Row) (l : List Row) : Option (Row × List Row) := h.elim (l.head?.map fun r => (r, l.tail)) fun r => some (r, l)

/-- The loop of `TupleTable::merge` (table.cpp:185-208) and the copying of the remaining rows (table.cpp:210-223); `h1`, `h2` are the rows in the
buffers that were not used yet (`toRead` false). The first number bounds the iterations. -/
def mergeLoop : Nat → Option Row → List Row → Option Row → List Row → List Row
  | 0, _, _, _, _ => []
  | n + 1, h1, l1, h2, l2 =>
    match nextRow h1 l1, nextRow h2 l2 with
    | some (a, l1'), some (b, l2') =>
      match cmpL a b with
      | .lt => a :: mergeLoop n none l1' (some b) l2'
      | .gt => b :: mergeLoop n (some a) l1' none l2'
      | .eq => a :: mergeLoop n none l1' none l2'
    | _, _ => h1.toList ++ l1 ++ (h2.toList ++ l2)

/-- `TupleTable::merge` (table.cpp:173-229): the result has no names and keeps the flag of a new table. -/
def Tab.merge (t u : Tab) : Tab := ⟨[], t.size, mergeLoop (t.rows.length + u.rows.length + 1) none t.rows none u.rows, true⟩

/-- The loop of `TupleTable::retain` (table.cpp:130-155) and the copying of the remaining rows (table.cpp:157-163); `p` is the previous row of the first table. -/
def retainLoop : Nat → Option Row → Option Row → List Row → Option Row → List Row → List Row
  | 0, _, _, _, _, _ => []
  | n + 1, p, h1, l1, h2, l2 =>
    if l1 = [] ∨ l2 = [] then h1.toList ++ l1
    else if h1 = none ∧ (p.elim false fun q => cmpL q (l1.head?.getD []) == .eq) = true then retainLoop n p none l1.tail h2 l2
    else
      match nextRow h1 l1, nextRow h2 l2 with
      | some (a, l1'), some (b, l2') =>
        match cmpL a b with
        | .eq => retainLoop n (some a) none l1' none l2'
        | .lt => a :: retainLoop n (some a) none l1' (some b) l2'
        | .gt => retainLoop n (some a) (some a) l1' none l2'
      | _, _ => []

/-- `TupleTable::retain` (table.cpp:116-171): meant to keep the rows that are not in the other table. -/
def Tab.retain (t u : Tab) : Tab := ⟨[], t.size, retainLoop (t.rows.length + u.rows.length + 1) none none t.rows none u.rows, true⟩

/-! ## Join (table.cpp:420-549) -/

/-- `TupleTable::getPosJoins` and the same loops in `join` (table.cpp:238-248, 426-433): positions with the same name. -/
def joinFields (s1 s2 : List Nat) : List (Nat × Nat) :=
  (List.range s1.length).flatMap fun i => ((List.range s2.length).filter fun j => s1[i]? == s2[j]?).map fun j => (i, j)

/-- The positions of the second table that are copied (table.cpp:455-473). -/
def posToCopy (js : List (Nat × Nat)) (n : Nat) : List Nat := (List.range n).filter fun i => !(js.map Prod.snd).contains i

/-- The merge join (table.cpp:500-543): `out` is called for each pair of rows in ranges with equal fields. The first number bounds the iterations. -/
def mjoin {α : Type} (k1 k2 : Row → List Nat) (out : Row → Row → α) : Nat → List Row → List Row → List α
  | n + 1, r1 :: t1, r2 :: t2 =>
    match cmpL (k1 r1) (k2 r2) with
    | .lt => mjoin k1 k2 out n t1 (r2 :: t2)
    | .gt => mjoin k1 k2 out n (r1 :: t1) t2
    | .eq =>
      let e1 := fun r => cmpL (k1 r1) (k1 r) == .eq
      let e2 := fun r => cmpL (k2 r2) (k2 r) == .eq
      ((r1 :: t1.takeWhile e1).flatMap fun a => (r2 :: t2.takeWhile e2).map (out a)) ++ mjoin k1 k2 out n (t1.dropWhile e1) (t2.dropWhile e2)
  | _, _, _ => []

/-- `TupleTable::join` (table.cpp:420-549). `none`: an exception, without names or with more than eight fields to sort by (table.h:45-48). The sorted
copies of the tables are made, but the loop reads the rows of the tables themselves (table.cpp:492-493, 503-504). -/
def Tab.join (t u : Tab) : Option Tab :=
  if t.sig = [] ∨ u.sig = [] then none
  else
    let js := joinFields t.sig u.sig
    if js = [] then
      some (Tab.make (t.sig ++ u.sig) (t.rows.flatMap fun r => u.rows.map fun s => r ++ s))
    else if 8 < js.length then none
    else
      let ps := posToCopy js u.size
      some (Tab.make (t.sig ++ ps.map fun i => u.sig.getD i 0)
        (mjoin (pick (js.map Prod.fst)) (pick (js.map Prod.snd)) (fun r s => r ++ pick ps s) (t.rows.length + u.rows.length) t.rows u.rows))

/-- `TupleTable::joinHitRates`, the field `size` (table.cpp:250-336): the number of rows of the join. `none`: an exception, or no value (no shared
name). -/
def Tab.hits (t u : Tab) : Option Nat :=
  if t.sig = [] ∨ u.sig = [] then none
  else
    let js := joinFields t.sig u.sig
    if js = [] ∨ 8 < js.length then none
    else some (mjoin (pick (js.map Prod.fst)) (pick (js.map Prod.snd)) (fun _ _ => ()) (t.rows.length + u.rows.length) t.rows u.rows).length

/-- `TupleTable::sortBy` (table.cpp:82-100): `srt` is `std::sort` with the order of `Sorter`, given by the compared fields; `none` for more than eight
fields. -/
def Tab.sortBy (srt : (Row → List Nat) → List Row → List Row) (t : Tab) (fs : List Nat) : Option Tab :=
  if 8 < fs.length then none else some ⟨t.sig, t.size, srt (pick fs) t.rows, t.rows.isEmpty⟩

/-! ## The iterator (table.cpp:31-80, table.h:177-208) -/

/-- `TupleTableItr`. -/
structure St where
  counter : Int
  hnc : Bool
  hn : Bool
  nextpos : Nat

/-- The constructor (table.h:189-191). -/
def St.start : St := ⟨-1, false, false, 0⟩

/-- `getPosAtRow` (table.h:159-162): the row number is a 32-bit number. `none`: outside the table (an exception). -/
def Tab.at (t : Tab) (row : Int) (col : Nat) : Option Nat := (t.rows[row.toNat % 2 ^ 32]?).bind fun r => r[col]?

/-- `same` (table.cpp:31-34). -/
def Tab.same (t : Tab) (a : Int) (b : Nat) : Bool := t.at a 0 == t.at b 0 && t.at a 1 == t.at b 1

/-- The loop that skips rows that agree on the first two columns (table.cpp:42-44, 71-73). -/
def Tab.skip (t : Tab) (c : Int) : Nat → Nat → Nat
  | 0, p => p
  | n + 1, p => if p < t.rows.length ∧ t.same c p = true then t.skip c n (p + 1) else p

/-- `hasNext` (table.cpp:36-53), `next` (table.cpp:55-61), and the row with `count` (table.cpp:67-76) as value. The bound on the skipping loop is the
number of rows. -/
def Tab.itr (t : Tab) (skipLast : Bool) : Itr St (Option Row × Nat) where
  hasNext s :=
    if t.size = 0 then (if s.counter = -1 then !t.empty else false, s)
    else if s.hnc then (s.hn, s)
    else if skipLast ∧ s.counter ≠ -1 then
      let p := t.skip s.counter t.rows.length s.nextpos
      (decide (p < t.rows.length), { s with hnc := true, hn := decide (p < t.rows.length), nextpos := p })
    else
      let h := decide (s.counter + 1 < t.rows.length)
      (h, { s with hnc := true, hn := h, nextpos := (s.counter + 1).toNat })
  next s := { s with counter := s.nextpos, hnc := false }
  val s := (t.rows[s.counter.toNat % 2 ^ 32]?, if skipLast then t.skip s.counter t.rows.length s.nextpos - s.counter.toNat else 1)

end Trident.Join.Table
