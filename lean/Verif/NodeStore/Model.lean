import Verif.Bytes
/-!
# The storage of tree nodes

Models `/repo/src/trident/tree/nodemanager.cpp`: where the serialised nodes of a tree are put in files, the index of the nodes that is written on
closing, and the compaction of the files.  A file is the list of its bytes up to its logical length; that the file manager closes and reopens files
in between does not change them (filedescriptor.cpp:215-234).  Positions and sizes are natural numbers: the code uses `int`, so that files must stay
below 2 GB.
-/
namespace Trident.NodeStore

/-- nodemanager.h:38-47 `CachedNode`.  The links `previous` and `next` are replaced by the list of the nodes of a file. -/
structure CNode where
  id : Nat
  children : Bool
  size : Nat
  avail : Nat
  pos : Nat
  file : Nat
  deriving DecidableEq

/-- nodemanager.h:62-84: the nodes of each file in their order, and the bytes of each file. -/
structure Store where
  lists : List (List CNode)
  data : List (List UInt8)
  deriving DecidableEq

/-- nodemanager.cpp:32-86, the constructor for writing into an empty directory. -/
def Store.fresh : Store := ⟨[[]], [[]]⟩

/-- nodemanager.cpp:130-146 `getCachedNode` while writing. -/
def Store.find (s : Store) (id : Nat) : Option CNode := s.lists.flatten.find? fun c => c.id == id

/-- Writing `w` over the bytes from `p` on. -/
def overwrite (l : List UInt8) (p : Nat) (w : List UInt8) : List UInt8 := l.take p ++ w ++ l.drop (p + w.length)

/-- filedescriptor.cpp:101-109 `shiftFile`: the bytes from `p` on move by `diff`; `gap` is what the file holds beyond its length. -/
def shiftFile (l : List UInt8) (p diff : Nat) (gap : Nat → UInt8) : List UInt8 :=
  l.take p ++ (l.drop p ++ (List.range diff).map gap).take diff ++ l.drop p

/-- nodemanager.cpp:155 `(sizeBuffer - cn->availableSize + 1023) & ~1023`. -/
def increment (n avail : Nat) : Nat := (n - avail + 1023) / 1024 * 1024

/-- nodemanager.cpp:158-164, 171: the fields of the node and the positions of those behind it. -/
def bump (id diff n : Nat) : List CNode → List CNode
  | [] => []
  | c :: cs =>
    if c.id = id then { c with avail := c.avail + diff, size := n } :: cs.map fun d => { d with pos := d.pos + diff }
    else c :: bump id diff n cs

/-- One call of `put`: the node, whether it can have children, the buffer with the size of the node, and what is in the file beyond its end. -/
structure Put where
  id : Nat
  children : Bool
  buf : List UInt8
  n : Nat
  gap : Nat → UInt8

/-- nodemanager.cpp:148-206 `put`.  `none`: the buffer is shorter than what is read from it. -/
def Store.put (nodeMin fileMax : Nat) (s : Store) (p : Put) : Option Store :=
  match s.find p.id with
  | some cn =>
    if p.buf.length < p.n then none
    else
      let diff := if p.n > cn.avail then increment p.n cn.avail else 0
      some {
        lists := s.lists.map (bump p.id diff p.n)
        data := s.data.modify cn.file fun d => overwrite (if p.n > cn.avail then shiftFile d cn.pos diff p.gap else d) cn.pos (p.buf.take p.n) }
  | none =>
    let avail := max nodeMin p.n
    if p.buf.length < avail then none
    else
      let s1 : Store := if (s.data.getLastD []).length ≥ fileMax then ⟨s.lists ++ [[]], s.data ++ [[]]⟩ else s
      let f := s1.data.length - 1
      let c : CNode := ⟨p.id, p.children, p.n, avail, (s1.data.getLastD []).length, f⟩
      some { lists := s1.lists.modify f (· ++ [c]), data := s1.data.modify f (· ++ p.buf.take avail) }

def Store.puts (nodeMin fileMax : Nat) : Store → List Put → Option Store
  | s, [] => some s
  | s, p :: ps => (s.put nodeMin fileMax p).bind fun s' => Store.puts nodeMin fileMax s' ps

/-- nodemanager.cpp:125-128 `get`: the bytes of a node. -/
def blockOf (data : List (List UInt8)) (c : CNode) : Option (List UInt8) :=
  (data[c.file]?).bind fun d => if c.pos + c.size ≤ d.length then some ((d.drop c.pos).take c.size) else none

def Store.get (s : Store) (id : Nat) : Option (Bool × List UInt8) :=
  (s.find id).bind fun c => (blockOf s.data c).map fun b => (c.children, b)

/-! ## The index -/

/-- nodemanager.cpp:109-123 `serializeTo`. -/
def record (c : CNode) : List UInt8 :=
  encBE 8 c.id ++ ([if c.children then 1 else 0] ++ (encBE 4 c.file ++ (encBE 4 c.pos ++ (encBE 4 c.size ++ encBE 4 c.avail))))

/-- nodemanager.cpp:317-335: the nodes file by file, the first of each file marked. -/
def marked (lists : List (List CNode)) : List (Bool × CNode) :=
  lists.flatMap fun l => match l with
    | [] => []
    | c :: cs => (true, c) :: cs.map fun d => (false, d)

/-- nodemanager.cpp:320-331, the bytes. -/
def body (l : List (Bool × CNode)) : List UInt8 := l.flatMap fun r => (if r.1 then 1 else 0) :: record r.2

/-- nodemanager.cpp:322, 329: the positions of the records; `none`: outside of the array. -/
def coordinates : List (Bool × CNode) → Nat → List UInt8 → Option (List UInt8)
  | [], _, co => some co
  | r :: rs, p, co => if 4 * r.2.id + 4 ≤ co.length then coordinates rs (p + 26) (overwrite co (4 * r.2.id) (encBE 4 (p + 1))) else none

/-- nodemanager.cpp:301-341 `~NodeManager`, 236-291 the same in `compressSpace`: the index.  `junk` is what the new array holds. -/
def index (l : List (Bool × CNode)) (junk : Nat → UInt8) : Option (List UInt8) :=
  (coordinates l (4 + 4 * l.length) ((List.range (4 * l.length)).map junk)).map fun co => encBE 4 l.length ++ (co ++ body l)

def Store.close (s : Store) (junk : Nat → UInt8) : Option (List UInt8) := index (marked s.lists) junk

def memOf (l : List UInt8) : Mem := fun a => l.getD a 0

/-- `Utils::decode_int` within the file. -/
def readInt (l : List UInt8) (a : Nat) : Option Nat := if a + 4 ≤ l.length then some (rdInt (memOf l) a).toNat else none

/-- nodemanager.cpp:88-107 `unserializeNodeFrom`. -/
def readNode (l : List UInt8) (a : Nat) : Option CNode :=
  if a + 25 ≤ l.length then
    some ⟨(rdLong (memOf l) a).toNat, memOf l (a + 8) == 1, (rdInt (memOf l) (a + 17)).toNat, (rdInt (memOf l) (a + 21)).toNat,
      (rdInt (memOf l) (a + 13)).toNat, (rdInt (memOf l) (a + 9)).toNat⟩
  else none

/-- nodemanager.cpp:130-138 `getCachedNode` of a store opened for reading. -/
def loadNode (idx : List UInt8) (id : Nat) : Option CNode := (readInt idx (4 + id * 4)).bind fun p => readNode idx p

/-- A node read from the files. -/
def fetch (idx : List UInt8) (data : List (List UInt8)) (id : Nat) : Option (Bool × List UInt8) :=
  (loadNode idx id).bind fun c => (blockOf data c).map fun b => (c.children, b)

/-! ## Compaction -/

/-- nodemanager.cpp:221-233, the records up to the end of the index. -/
def scan (idx : List UInt8) : Nat → Nat → Option (List (Bool × CNode))
  | 0, _ => none
  | fuel + 1, p =>
    if p < idx.length then
      (readNode idx (p + 1)).bind fun c => (scan idx fuel (p + 26)).map fun r => (memOf idx p != 0, c) :: r
    else some []

/-- nodemanager.cpp:227-231: one list per file; `none`: the first record is not marked. -/
def group : List (Bool × CNode) → Option (List (List CNode))
  | l => l.foldlM (fun acc r =>
      if r.1 then some (acc ++ [[r.2]])
      else if acc = [] then none
      else some (acc.modify (acc.length - 1) (· ++ [r.2]))) []

/-- nodemanager.cpp:255-276: the nodes and the bytes of the new file; `at_` is its length so far. -/
def packFile (d : List UInt8) : List CNode → Nat → List CNode × List UInt8
  | [], _ => ([], [])
  | c :: cs, at_ =>
    let r := packFile d cs (at_ + c.size)
    ({ c with pos := at_, avail := c.size } :: r.1, (d.drop c.pos).take c.size ++ r.2)

/-- nodemanager.cpp:247-289, file by file. -/
def packAll : List (List CNode) → List (List UInt8) → List (List CNode) × List (List UInt8)
  | [], data => ([], data)
  | l :: ls, data =>
    let r := packFile (data.headD []) l 0
    let rs := packAll ls data.tail
    (r.1 :: rs.1, r.2 :: rs.2)

/-- nodemanager.cpp:208-295 `compressSpace`: the new index and files.  `none`: an access outside of an array. -/
def compress (idx : List UInt8) (data : List (List UInt8)) (junk : Nat → UInt8) : Option (List UInt8 × List (List UInt8)) := do
  let n ← readInt idx 0
  let l ← scan idx (idx.length + 1) (4 + 4 * n)
  let ls ← group l
  if l.length = 0 then none
  else
    let r := packAll ls data
    let idx' ← index (marked r.1) junk
    some (idx', r.2)

end Trident.NodeStore
