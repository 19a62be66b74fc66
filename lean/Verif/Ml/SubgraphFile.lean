import Verif.Ml.Subgraphs
/-!
# Files of subgraphs

Model of `storeToFile` and `loadFromFile` of `Subgraphs` (/repo/include/trident/ml/subgraphs.h:28-64),
`AvgSubgraphs` and `VarSubgraphs` (/repo/src/trident/ml/subgraphs.cpp:5-91).

Simplified: a byte is a natural number below 256, and a `double` is the number of its 64 bits, that
is read and written as it is. `none` is: the file ends too early, or an `assert` fails.
-/
namespace Trident.Subgraphs

/-- `w` bytes of a number with the low byte first: an `uint64_t` or a `double` that is written from memory. -/
def putLE : Nat → Nat → List Nat
  | 0, _ => []
  | w + 1, x => x % 256 :: putLE w (x / 256)

/-- The number in bytes with the low byte first. -/
def getLE : List Nat → Nat
  | [] => 0
  | b :: bs => b + 256 * getLE bs

/-- `Utils::encode_short` and `encode_long` (kognac, not in /repo): the high byte first. -/
def putBE (w x : Nat) : List Nat := (putLE w x).reverse

/-- `Utils::decode_short` and `decode_long` (kognac, not in /repo). -/
def getBE (bs : List Nat) : Nat := getLE bs.reverse

/-- `read` of `n` bytes. -/
def readBytes (n : Nat) (bs : List Nat) : Option (List Nat × List Nat) :=
  if n ≤ bs.length then some (bs.take n, bs.drop n) else none

/-- A line of 25 bytes (/repo/include/trident/ml/subgraphs.h:53-62). -/
def putMeta (m : Meta) : List Nat :=
  (if m.sp then 1 else 0) :: (putLE 8 m.ent ++ (putLE 8 m.rel ++ putLE 8 m.size))

/-- `Subgraphs::storeToFile` (/repo/include/trident/ml/subgraphs.h:48-64). -/
def putMetas (ms : List Meta) : List Nat := putLE 8 ms.length ++ ms.flatMap putMeta

/-- The loop of `Subgraphs::loadFromFile` (/repo/include/trident/ml/subgraphs.h:34-45); the first
argument is the number of lines that are left. -/
def getLines : Nat → List Nat → List Meta → Option (List Meta × List Nat)
  | 0, bs, ms => some (ms, bs)
  | n + 1, bs, ms => do
    let (l, bs) ← readBytes 25 bs
    getLines n bs (addSubgraph ms (l.headD 0 != 0) (getLE ((l.drop 1).take 8)) (getLE ((l.drop 9).take 8)) (getLE ((l.drop 17).take 8)))

/-- `Subgraphs::loadFromFile` (/repo/include/trident/ml/subgraphs.h:28-46). -/
def getMetas (bs : List Nat) (ms : List Meta) : Option (List Meta × List Nat) := do
  let (l, bs) ← readBytes 8 bs
  getLines (getLE l) bs ms

/-- The loops up to the end of the file (subgraphs.cpp:14-21, 44-51). Bytes after the last whole
number are ignored. The fuel is the number of bytes. -/
def getRest : Nat → List Nat → List Nat → List Nat
  | 0, _, ps => ps
  | fuel + 1, bs, ps =>
    match readBytes 8 bs with
    | none => ps
    | some (l, bs) => getRest fuel bs (ps ++ [getLE l])

/-- The fields of `AvgSubgraphs` and `VarSubgraphs`. -/
structure Store where
  metas : List Meta
  dim : Nat
  mincard : Nat
  params : List Nat
  variances : List Nat
deriving DecidableEq

/-- `AvgSubgraphs::storeToFile` (subgraphs.cpp:56-69). -/
def storeAvg (g : Store) : List Nat :=
  putMetas g.metas ++ (putBE 2 g.dim ++ (putBE 8 g.mincard ++ g.params.flatMap (putLE 8)))

/-- `AvgSubgraphs::loadFromFile` (subgraphs.cpp:5-23), in the object `g`. -/
def loadAvg (bs : List Nat) (g : Store) : Option Store := do
  let (ms, bs) ← getMetas bs g.metas
  let (l, bs) ← readBytes 10 bs
  some { g with metas := ms, dim := getBE (l.take 2), mincard := getBE ((l.drop 2).take 8),
                params := getRest bs.length bs g.params }

/-- `VarSubgraphs::storeToFile` (subgraphs.cpp:71-91). -/
def storeVar (g : Store) : Option (List Nat) :=
  if g.params.length = g.variances.length then
    some (putMetas g.metas ++ (putBE 2 g.dim ++ (putBE 8 g.mincard ++ (putBE 8 g.params.length ++
      (g.params.flatMap (putLE 8) ++ g.variances.flatMap (putLE 8))))))
  else none

/-- The loop over `nParams` numbers (subgraphs.cpp:35-43): `i` is an `uint32_t`. Every turn takes
eight bytes, so the number of bytes and one is enough fuel. -/
def getParams (n : Nat) : Nat → Nat → List Nat → List Nat → Option (List Nat × List Nat)
  | 0, _, _, _ => none
  | fuel + 1, i, bs, ps =>
    if i < n then
      match readBytes 8 bs with
      | none => none
      | some (l, bs) => getParams n fuel ((i + 1) % 2 ^ 32) bs (ps ++ [getLE l])
    else some (ps, bs)

/-- `VarSubgraphs::loadFromFile` (subgraphs.cpp:25-54), in the object `g`. -/
def loadVar (bs : List Nat) (g : Store) : Option Store := do
  let (ms, bs) ← getMetas bs g.metas
  let (l, bs) ← readBytes 18 bs
  let (ps, bs) ← getParams (getBE ((l.drop 10).take 8)) (bs.length + 1) 0 bs g.params
  let vs := getRest bs.length bs g.variances
  if ps.length = vs.length then
    some ⟨ms, getBE (l.take 2), getBE ((l.drop 2).take 8), ps, vs⟩
  else none

end Trident.Subgraphs
