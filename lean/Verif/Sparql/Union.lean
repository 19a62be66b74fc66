import Verif.Sparql.Op
/-!
# UNION

Model of /repo/rdf3x/src/rts/Union.cpp, of the code that prepares it (/repo/rdf3x/src/cts/CodeGen.cpp:870-918), and of /repo/rdf3x/src/rts/MergeUnion.cpp.
Registers have numbers.  An assignment of variables to registers (`map<unsigned, Register*>`) is an association list, in which the first entry of a variable counts.
-/
namespace Trident.Sparql.Union

/-- The contents of all registers. -/
abbrev Regs := Nat → Nat

/-- `~0u`, the value of an unbound variable (Union.cpp:38). -/
def unbound : Nat := 0xFFFFFFFF

/-- A part of the union: the registers that its operators change (`own`), its rows, i.e. the number of occurrences and the values of these registers, and
the registers of its variables (`subBindings[index]`, CodeGen.cpp:886-891). -/
structure Part where
  own : Nat → Bool
  rows : List (Nat × Regs)
  binds : List (Nat × Nat)

/-- A call of `first()` or `next()` of a part: its registers get the values of the row. -/
def write (p : Part) (f R : Regs) : Regs := fun x => if p.own x then f x else R x

/-- `(*reg).value = v` -/
def set (R : Regs) (r v : Nat) : Regs := fun x => if x = r then v else R x

/-- `bindings`: the variables of all parts; the first part that has a variable determines the register (CodeGen.cpp:893-897). -/
def bindings (parts : List Part) : List (Nat × Nat) := parts.flatMap (·.binds)

/-- The register of a variable. -/
def reg (b : List (Nat × Nat)) (v : Nat) : Option Nat := b.lookup v

/-- `mappings[index]` (CodeGen.cpp:904-908): the register of the part and the register of the result, if they differ. -/
def mappings (all : List (Nat × Nat)) (p : Part) : List (Nat × Nat) :=
  p.binds.filterMap fun b => match reg all b.1 with
    | some to => if to = b.2 then none else some (b.2, to)
    | none => none

/-- `initializations[index]` (CodeGen.cpp:909-911): the registers of the variables that the part does not have. -/
def initializations (all : List (Nat × Nat)) (p : Part) : List Nat :=
  all.filterMap fun b => if (reg p.binds b.1).isNone then reg all b.1 else none

/-- The loop over `initializations[current]` (Union.cpp:37-38). -/
def clear (l : List Nat) (R : Regs) : Regs := l.foldl (fun R r => set R r unbound) R

/-- The loop over `mappings[current]` (Union.cpp:39-43 and 75-79). -/
def applyMap (l : List (Nat × Nat)) (R : Regs) : Regs := l.foldl (fun R m => set R m.2 (R m.1)) R

/-- `next` as long as the current part has rows (Union.cpp:59-82): the rows and the registers at the end. -/
def nextRows (all : List (Nat × Nat)) (p : Part) : List (Nat × Regs) → Regs → List (Nat × Regs) × Regs
  | [], R => ([], R)
  | r :: rs, R =>
    let R' := applyMap (mappings all p) (write p r.2 R)
    let rest := nextRows all p rs R'
    ((r.1, R') :: rest.1, rest.2)

/-- `firstFromPart` (Union.cpp:27-47), and then `next` (Union.cpp:59-82) until the end. -/
def fromPart (all : List (Nat × Nat)) : List Part → Regs → List (Nat × Regs)
  | [], _ => []
  | p :: ps, R =>
    match p.rows with
    | [] => fromPart all ps R
    | r :: rs =>
      let R' := applyMap (mappings all p) (clear (initializations all p) (write p r.2 R))
      let rest := nextRows all p rs R'
      (r.1, R') :: rest.1 ++ fromPart all ps rest.2

/-- All rows of a union (`first`, Union.cpp:49-57), with the registers at that time. -/
def union (parts : List Part) (R : Regs) : List (Nat × Regs) := fromPart (bindings parts) parts R

/-- The values of the variables `vars` in the rows of the union. -/
def rows (parts : List Part) (vars : List Nat) (R : Regs) : List Row :=
  (union parts R).map fun r => (r.1, vars.map fun v => match reg (bindings parts) v with
    | some x => r.2 x
    | none => unbound)

end Trident.Sparql.Union

namespace Trident.Sparql.MergeUnion

/-- The state of the operator (/repo/rdf3x/include/rts/operator/MergeUnion.hpp). -/
inductive St | done | stepLeft | stepRight | stepBoth | leftEmpty | rightEmpty
  deriving DecidableEq

/-- The members of a `MergeUnion`: the remaining rows of both sides, the last counts and values. -/
structure MU where
  st : St
  left : List (Nat × Nat)
  right : List (Nat × Nat)
  leftCount : Nat
  leftValue : Nat
  rightCount : Nat
  rightValue : Nat

/-- The comparison of the two rows (MergeUnion.cpp:54-72 and 99-117). -/
def handle (s : MU) : Step MU :=
  if s.leftValue < s.rightValue then .emit (s.leftCount, [s.leftValue]) { s with st := .stepLeft }
  else if s.rightValue < s.leftValue then .emit (s.rightCount, [s.rightValue]) { s with st := .stepRight }
  else .emit (s.leftCount + s.rightCount, [s.leftValue]) { s with st := .stepBoth }

/-- `first` (MergeUnion.cpp:27-73). -/
def first (left right : List (Nat × Nat)) : Step MU :=
  match left, right with
  | [], [] => .stop
  | [], r :: rs => .emit (r.1, [r.2]) ⟨.leftEmpty, [], rs, 0, 0, r.1, r.2⟩
  | l :: ls, [] => .emit (l.1, [l.2]) ⟨.rightEmpty, ls, [], l.1, l.2, 0, 0⟩
  | l :: ls, r :: rs => handle ⟨.stepBoth, ls, rs, l.1, l.2, r.1, r.2⟩

/-- The case `stepRight` (MergeUnion.cpp:89-117); `stepLeft` skips the call of `next` of the right side. -/
def stepRight (s : MU) : Step MU :=
  if s.st ≠ .stepLeft then
    match s.right with
    | [] => .emit (s.leftCount, [s.leftValue]) { s with st := .rightEmpty }
    | r :: rs => handle { s with right := rs, rightCount := r.1, rightValue := r.2 }
  else handle s

/-- `next` (MergeUnion.cpp:75-136). -/
def next (s : MU) : Step MU :=
  match s.st with
  | .done => .stop
  | .stepLeft | .stepBoth =>
    match s.left with
    | [] => .emit (s.rightCount, [s.rightValue]) { s with st := .leftEmpty }
    | l :: ls => stepRight { s with left := ls, leftCount := l.1, leftValue := l.2 }
  | .stepRight => stepRight s
  | .leftEmpty =>
    match s.right with
    | [] => .stop
    | r :: rs => .emit (r.1, [r.2]) { s with right := rs, rightCount := r.1 }
  | .rightEmpty =>
    match s.left with
    | [] => .stop
    | l :: ls => .emit (l.1, [l.2]) { s with left := ls, leftCount := l.1 }

/-- The rows that are returned. -/
def Returns (left right : List (Nat × Nat)) (out : List Row) : Prop :=
  match first left right with
  | .stop => out = []
  | .go _ => False
  | .emit r s => ∃ l, Runs next s l ∧ out = r :: l

end Trident.Sparql.MergeUnion
