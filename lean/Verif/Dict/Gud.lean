import Verif.Dict.Compress
/-!
# The terms of small updates

dictmgmt.cpp: terms of updates with fewer than 10000 new terms are kept in two maps, written to one text file when the dictionary is
closed, and read again when it is opened.
-/
namespace Trident.Dict

/-- dictmgmt.h:75-82: the two maps and the largest id. -/
structure Gud where
  texts : List (Nat × Text) := []
  ids : List (Text × Nat) := []
  largest : Nat := 0
deriving DecidableEq, Repr

/-- `insert` of a map: an existing key keeps its value. -/
def insertNew {α β : Type} [BEq α] (k : α) (v : β) (l : List (α × β)) : List (α × β) := if (l.lookup k).isSome then l else l ++ [(k, v)]

/-- dictmgmt.cpp:127-135 (`putInUpdateDict`). -/
def Gud.put (g : Gud) (id : Nat) (t : Text) : Gud :=
  ⟨insertNew id t g.texts, insertNew t id g.ids, max id g.largest⟩

/-- `operator<<` for an unsigned number: its decimal digits. -/
def decimal : Nat → Nat → List UInt8
  | 0, _ => []
  | f + 1, n => if n < 10 then [UInt8.ofNat (48 + n)] else decimal f (n / 10) ++ [UInt8.ofNat (48 + n % 10)]

/-- A 64-bit number has at most 20 digits. -/
def showNum (n : Nat) : List UInt8 := decimal 20 n

/-- dictmgmt.cpp:325-336 (`~DictMgmt`): the file.  `order` is the order in which the hash map is iterated. -/
def Gud.write (order : List (Nat × Text) → List (Nat × Text)) (g : Gud) : List UInt8 :=
  showNum g.largest ++ [10] ++ (order g.texts).flatMap fun e => showNum e.1 ++ [9] ++ e.2 ++ [10]

/-- `isspace` in the default locale. -/
def isSpace (c : UInt8) : Bool := c = 32 || (9 ≤ c && c ≤ 13)

def isDigit (c : UInt8) : Bool := 48 ≤ c && c ≤ 57

/-- The number with these decimal digits. -/
def digitsVal (l : List UInt8) : Nat := l.foldl (fun a c => 10 * a + (c.toNat - 48)) 0

/-- What `ifs >> id` does: `fail` sets the failure bit (`eof` tells whether the end was reached as well); the variable does not matter
then, because the text that is read next stays empty. -/
inductive NumRes
  | ok (n : Nat) (rest : List UInt8)
  | fail (eof : Bool)
deriving DecidableEq

/-- `operator>>` for an unsigned 64-bit number: skips white space, takes a sign and the longest sequence of digits.  A negative number is
taken modulo 2^64, a number that is too large fails. -/
def readNum (inp : List UInt8) : NumRes :=
  let a := inp.dropWhile isSpace
  let neg := a.head? = some 45
  let b := if neg ∨ a.head? = some 43 then a.tail else a
  let ds := b.takeWhile isDigit
  let rest := b.dropWhile isDigit
  let v := digitsVal ds
  if ds = [] ∨ 2 ^ 64 ≤ v then .fail rest.isEmpty else .ok (if neg then (2 ^ 64 - v) % 2 ^ 64 else v) rest

/-- dictmgmt.cpp:62-71: the loop that reads the entries.  The result is `none` if it never ends: after a failure that is not at the end of
the file, nothing is read any more and `eof()` stays false.  `fuel` counts the rounds; each round that goes on reads at least one
character. -/
def readEntries : Nat → List UInt8 → Gud → Option Gud
  | 0, _, _ => none
  | fuel + 1, inp, g =>
    match readNum inp with
    | .fail eof => if eof then some g else none
    | .ok id rest =>
      -- the stream is at its end: `ifs >> term` reads nothing
      let a := rest.dropWhile isSpace
      let t := a.takeWhile fun c => !isSpace c
      let rest' := a.dropWhile fun c => !isSpace c
      if t = [] then some g
      else
        let g' := { g with texts := insertNew id t g.texts, ids := insertNew t id g.ids }
        if rest'.isEmpty then some g' else readEntries fuel rest' g'

/-- dictmgmt.cpp:57-72: reading the file; `none` if the constructor never returns. -/
def readGud (file : List UInt8) : Option Gud :=
  match readNum file with
  | .fail eof => if eof then some {} else none
  | .ok n rest => if rest.isEmpty then some ⟨[], [], n⟩ else readEntries (rest.length + 1) rest ⟨[], [], n⟩

end Trident.Dict
