import Verif.Load.Loader
/-!
# The tables of an update (`DiffIndex3`)

/repo/src/trident/kb/diffindex3.cpp: `createDiffIndex`, `sortIndex`, `storeTablesOnBuffer`, the writers of the row and
column format, and opening the tables again.  The statistics (`UpdateStats`) are not part of this file.
-/
namespace Trident.Diff3
open Load

/-! ## Packed pairs -/

/-- diffindex3.cpp:1454-1457: two ids in one `uint64_t`, `(second << 32) + third`. -/
def pack (a b : Nat) : Nat := (a * 2 ^ 32 + b) % 2 ^ 64

/-- `tmp[i] >> 32`. -/
def hi (x : Nat) : Nat := x / 2 ^ 32

/-- `tmp[i] & ((uint32_t) - 1)`. -/
def lo (x : Nat) : Nat := x % 2 ^ 32

/-- The value of `uint64_t prevpair = ~0u` (diffindex3.cpp:872,873,944,971,1111,1117). -/
def sentinel : Nat := 2 ^ 32 - 1

/-- The loops over `tmp[i]` skip an element equal to `prevpair` (diffindex3.cpp:888,905,997,1015,...). -/
def dedup : Nat → List Nat → List Nat
  | _, [] => []
  | prev, x :: l => if x ≠ prev then x :: dedup x l else dedup prev l

/-- The pairs that are written. -/
def rows (t : List Nat) : List (Nat × Nat) := (dedup sentinel t).map fun x => (hi x, lo x)

/-! ## Row format -/

/-- `tmp.back() >> 32`. -/
def maxHi (t : List Nat) : Nat := hi (t.getLast?.getD 0)

/-- diffindex3.cpp:787-851, the functions `_copy11` ... `_copy44`: the field written for a flag.  (Flag 3 writes eight
bytes; `flagWidth 3` reads five.  It is not reached, the values have 32 bits.) -/
def copyWidth : Nat → Width
  | 0 => .b1 | 1 => .b2 | 2 => .b4 | _ => .b8

/-- diffindex3.cpp:778-784: signature of a row table. -/
def rowStrat (f1 f2 : Nat) : Nat :=
  Strat.setBytesField2 (Strat.setBytesField1 (Strat.setStorageType 0 Strat.NEWROW) f1) f2 % 256

/-- diffindex3.cpp:855-932 `storeRowFormat` and the row part of 934-1079 `storeRowColumnFormat`: the bytes of one table. -/
def rowEncode (f1 f2 : Nat) (t : List Nat) : List UInt8 := Row.encode (copyWidth f1) (copyWidth f2) (rows t)

/-! ## Column format -/

/-- kognac `Utils::encode_vlong2_fixedLen`: as `encode_vlong2`, padded to `w` bytes by continuation bytes (not in /repo, trusted
base). -/
def encVFixed : Nat → Nat → List UInt8
  | 0, _ => []
  | 1, n => [UInt8.ofNat (n % 128)]
  | w + 2, n => UInt8.ofNat (128 + n % 128) :: encVFixed (w + 1) (n / 128)

/-- The variables of the loop diffindex3.cpp:1123-1183: the blocks whose count is known, the block waiting for
its count (`prevfirsttable`, `previousNValid`), the number of blocks and of rows.  (The count is written into the
hole left for it, when the next block starts.) -/
structure ColSt where
  bytes : List UInt8
  cur : Option (Nat × Nat)
  n : Nat
  valid : Nat

/-- Write the waiting block. -/
def ColSt.flush (b1 bc bo : Nat) (s : ColSt) : List UInt8 :=
  match s.cur with
  | some (k, o) => s.bytes ++ Column.encBlock b1 bc bo k (s.valid - o) o
  | none => s.bytes

/-- diffindex3.cpp:1124-1151 (and 1153-1182, 1015-1044): one row. -/
def colStep (b1 bc bo : Nat) (s : ColSt) (p : Nat × Nat) : ColSt :=
  if s.cur.map (·.1) = some p.1 then { s with valid := s.valid + 1 }
  else { bytes := s.flush b1 bc bo, cur := some (p.1, s.valid), n := s.n + 1, valid := s.valid + 1 }

/-- diffindex3.cpp:1081-1225 `storeColumnFormat`, and the column part of 934-1079 `storeRowColumnFormat`: the bytes of one table.  `b1`,
`b2` are the widths of the two fields.  The table size (of the whole) comes first. -/
def colEncode (b1 b2 : Nat) (t : List Nat) : List UInt8 :=
  let bc := nbytes t.length
  let s := (rows t).foldl (colStep b1 bc bc) ⟨[], none, 0, 0⟩
  let body := [UInt8.ofNat (b1 * 8 + b2 % 8), UInt8.ofNat (bc * 8 + bc % 8)] ++ encVFixed 4 s.n ++ encV t.length
    ++ s.flush b1 bc bc ++ (rows t).flatMap fun p => encBE b2 p.2
  encBE 4 (4 + body.length) ++ body

/-- diffindex3.cpp:979,1097-1098: signature of a column table. -/
def colStrat : Nat := Strat.setStorageType 0 Strat.NEWCOLUMN % 256

/-! ## The two tables of a key -/

/-- updatestats.h:28-35 `KeyInfo`, without the counts. -/
structure KeyInfo where
  key : Nat
  pos1 : Nat
  pos2 : Nat
  n : Nat
  strat1 : Nat
  strat2 : Nat

/-- The two files being written, and the keys. -/
structure Out where
  f1 : List UInt8
  f2 : List UInt8
  keys : List KeyInfo

/-- diffindex3.cpp:1260-1365 `storeTablesOnBuffer`.  `rnd` tells for each key what the two calls of `shouldUseColumns`, which draws random
numbers, return (1287-1288).  A block is appended to a file, and cut to the bytes written (`getNewBlock`, `setLastBlockSize`). -/
def storeTables (rnd : Nat → Bool × Bool) (st : Out) (g : Nat × List Nat × List Nat) : Out :=
  let t1 := g.2.1
  let t2 := g.2.2
  let b1 := nbytes (maxHi t1)
  let b2 := nbytes (maxHi t2)
  let c := if t1.length < 64 then (false, false) else rnd g.1
  { f1 := st.f1 ++ if c.1 then colEncode b1 b2 t1 else rowEncode (Strat.flag b1) (Strat.flag b2) t1
    f2 := st.f2 ++ if c.2 then colEncode b2 b1 t2 else rowEncode (Strat.flag b2) (Strat.flag b1) t2
    keys := st.keys ++ [{ key := g.1
                          pos1 := st.f1.length % 2 ^ 32
                          pos2 := st.f2.length % 2 ^ 32
                          n := if c.1 && !c.2 then (rows t2).length else (rows t1).length
                          strat1 := if c.1 then colStrat else rowStrat (Strat.flag b1) (Strat.flag b2)
                          strat2 := if c.2 then colStrat else rowStrat (Strat.flag b2) (Strat.flag b1) }] }

/-! ## `sortIndex` -/

/-- The calls of `std::sort`: on rows by the first column (diffindex3.cpp:1381), on packed pairs (1440-1441,1464-1465), and on
the input of `createDiffIndex`'s caller (updater.cpp:304). -/
structure Sorts where
  byKey : List T3 → List T3
  words : List Nat → List Nat
  triples : List T3 → List T3

/-- diffindex3.cpp:1424-1443: sort the pairs of a key; two are swapped if needed. -/
def sortGroup (S : Sorts) : List Nat → List Nat
  | [] => []
  | [x] => [x]
  | [x, y] => if x > y then [y, x] else [x, y]
  | l => S.words l

/-- diffindex3.cpp:1418-1472, the loop of `sortIndex` (with `sort = true`, as all callers have it): the tables given to `storeTablesOnBuffer`,
in the order of the calls.  `prev` is `prevkey` (none: -1). -/
def tables (S : Sorts) : Option Nat → List Nat → List Nat → List T3 → List (Nat × List Nat × List Nat)
  | prev, t1, t2, [] =>
    match prev with
    | some k => if t1.isEmpty then [] else [(k, S.words t1, S.words t2)]
    | none => []
  | prev, t1, t2, r :: l =>
    if prev = some r.1 then tables S prev (t1 ++ [pack r.2.1 r.2.2]) (t2 ++ [pack r.2.2 r.2.1]) l
    else
      (match prev with
        | some k => if t1.isEmpty then [] else [(k, sortGroup S t1, sortGroup S t2)]
        | none => [])
      ++ tables S (some r.1) [pack r.2.1 r.2.2] [pack r.2.2 r.2.1] l

/-- diffindex3.cpp:1367-1503 `sortIndex`; the rows are (first, second, third column), the files are appended to. -/
def sortIndex (S : Sorts) (rnd : Nat → Bool × Bool) (f1 f2 : List UInt8) (l : List T3) : Out :=
  (tables S none [] [] (S.byKey l)).foldl (storeTables rnd) ⟨f1, f2, []⟩

/-! ## `createDiffIndex` -/

/-- diffindex.h:39, used in diffindex3.cpp:1398,1407 (`THRESHOLD_USEGLOBALFILES`). -/
def USEGLOBAL : Nat := 1000000

/-- The partner of an order that shares its keys: SPO with SOP, POS with PSO, OPS with OSP. -/
def first (idx : Nat) : Nat := if idx < 3 then idx else idx - 3

/-- diffindex3.cpp:405-560 `createDiffIndex`, the three calls of `sortIndex`: SPO and SOP, POS and PSO, OPS and OSP.  `i` is the first
order of the pair.  A small update appends to the files `glob` shared by all updates, a large one creates its own. -/
def build (S : Sorts) (rnd : Nat → Nat → Bool × Bool) (glob : Nat → List UInt8) (ts : List T3) (i : Nat) : Out :=
  if ts.length < USEGLOBAL then sortIndex S (rnd i) (glob i) (glob (i + 3)) (ts.map (permRow i))
  else sortIndex S (rnd i) [] [] (ts.map (permRow i))

/-- The file of an order after the update. -/
def fileOf (B : Nat → Out) (idx : Nat) : List UInt8 := if idx < 3 then (B idx).f1 else (B (idx - 3)).f2

/-! ## Reading -/

/-- `TermCoordinates` of one order: signature, number of pairs, file (`short`) and mark. -/
structure DCoord where
  strat : Nat
  n : Nat
  file : Int
  mark : Nat
deriving DecidableEq

/-- A 16-bit number as `short`. -/
def toShort (n : Nat) : Int := if n < 2 ^ 15 then n else (n : Int) - 2 ^ 16

/-- diffindex3.cpp:659-660 (and 677-678, 695-696): `coord.set(idx, pos >> 16, pos & 0xFFFF, nelements, strat)`. -/
def KeyInfo.coord (k : KeyInfo) (second : Bool) : DCoord :=
  let pos := if second then k.pos2 else k.pos1
  ⟨if second then k.strat2 else k.strat1, k.n, toShort (pos / 2 ^ 16), pos % 2 ^ 16⟩

/-- diffindex.h: an opened update.  `base` are the addresses of the mapped files of the six orders, `tree` are the keys with
their coordinates (the lookup in the tree and the iteration over it are C30 and C31). -/
structure Diff where
  add : Bool
  mem : Mem
  base : Nat → Nat
  tree : Nat → List (Int × DCoord)

/-- The update as `DiffIndex3::DiffIndex3` opens it (diffindex3.cpp:29-80). -/
def openDiff (add : Bool) (m : Mem) (base : Nat → Nat) (B : Nat → Out) : Diff where
  add := add
  mem := m
  base := base
  tree idx := ((B (first idx)).keys).map fun k => ((k.key : Int), k.coord (decide (idx ≥ 3)))

/-- diffindex3.cpp:160-181 and 212-242: `begin`, `end` and `setup`. -/
def openT (m : Mem) (base : Nat) (c : DCoord) (v1 v2 : Option Int) : Option Strat.Tab :=
  let b := ((base : Int) + c.file * 2 ^ 16 + c.mark).toNat
  match Strat.decode c.strat with
  | some (.row w1 w2) => some (Strat.openTab m b (b + c.n * (w1.size + w2.size)) (.row w1 w2) v1 v2)
  | some L => some (Strat.openTab m (b + 4) (b + (rdInt m b).toNat) L v1 v2)
  | none => none

/-- The open table as an object. -/
def openTab (m : Mem) (base : Nat) (c : DCoord) (v1 v2 : Option Int) : Obj :=
  match openT m base c v1 v2 with
  | some t => Obj.tab m t
  | none => Obj.empty

/-- diffindex3.cpp:184-251 `getIterator(idx, first, second, third, nfirstterms)`, without the count. -/
def Diff.get (D : Diff) (idx : Nat) (k v1 v2 : Int) : Obj :=
  match (D.tree idx).find? fun e => e.1 = k with
  | some e => openTab D.mem (D.base idx) e.2 (optOf v1) (optOf v2)
  | none => Obj.empty

end Trident.Diff3
