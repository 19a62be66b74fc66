/-!
# Shortest paths

`NativeTasks::getShortPath` (/repo/include/snap/nativetasks.h:22-76): a breadth-first search
that follows the edges in both directions.
-/
namespace Trident.Snap

/-- The state of the search: the distances of the nodes that were seen (`NIdDistH`), the queue
and `MxDist`. -/
structure Search where
  dist : Nat → Option Nat
  queue : List Nat
  mx : Nat

/-- `NIdDistH.AddDat`. -/
def setDist (f : Nat → Option Nat) (v d : Nat) : Nat → Option Nat := fun x => if x = v then some d else f x

/-- The loops over the neighbours (/repo/include/snap/nativetasks.h:46-72): `d` is the distance
of the node. The left result is a `return`. -/
def visit (dst d : Nat) : List Nat → Search → Sum Nat Search
  | [], s => .inr s
  | w :: ws, s =>
    if (s.dist w).isSome then visit dst d ws s
    else
      let mx := max s.mx (d + 1)
      if w = dst then .inl mx
      else visit dst d ws ⟨setDist s.dist w (d + 1), s.queue ++ [w], mx⟩

/-- The loop over the queue (/repo/include/snap/nativetasks.h:38-74). `none` is: no fuel is left.
The test `Dist == limitDist` is left out, as `limitDist` is -1. -/
def bfs (outs ins : Nat → List Nat) (dst : Nat) : Nat → Search → Option Int
  | 0, _ => none
  | fuel + 1, s =>
    match s.queue with
    | [] => some (-1)
    | n :: q =>
      match visit dst ((s.dist n).getD 0) (outs n ++ ins n) { s with queue := q } with
      | .inl r => some r
      | .inr s => bfs outs ins dst fuel s

/-- `getShortPath` (/repo/include/snap/nativetasks.h:22-76) in a graph with the nodes below `n`:
`outs` and `ins` are the lists of neighbours. The fuel is one more than the number of nodes. -/
def shortPath (outs ins : Nat → List Nat) (n src dst : Nat) : Option Int :=
  bfs outs ins dst (n + 1) ⟨setDist (fun _ => none) src 0, [src], 0⟩

/-- `getShortPath2` (/repo/include/snap/nativetasks.h:78-87). -/
def shortPaths (outs ins : Nat → List Nat) (n : Nat) (pairs : List (Nat × Nat)) : List (Option Int) :=
  pairs.map fun p => shortPath outs ins n p.1 p.2

end Trident.Snap
