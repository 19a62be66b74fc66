import Verif.Sparql.Analysis
/-!
# The solutions of a group graph pattern

Multisets of solutions, as lists.  The values `V` are terms or ids, and `n` is the number of variables.
-/
namespace Trident.Sparql.Analysis.Spec

variable {V : Type} [DecidableEq V]

/-- A solution: the values of the variables that are bound. -/
abbrev Sol (V : Type) := Nat → Option V

def matchElem (σ : Sol V) (e : PElem V) (v : V) : Option (Sol V) :=
  match e with
  | .const c => if c = v then some σ else none
  | .var x => match σ x with
    | none => some fun y => if y = x then some v else σ y
    | some w => if w = v then some σ else none

/-- The solution with the variables of a pattern bound by a triple. -/
def matchTriple (σ : Sol V) (p : PElem V × PElem V × PElem V) (t : V × V × V) : Option (Sol V) :=
  (matchElem σ p.1 t.1).bind fun σ => (matchElem σ p.2.1 t.2.1).bind fun σ => matchElem σ p.2.2 t.2.2

/-- Triple patterns. -/
def triples (graph : List (V × V × V)) (ps : List (PElem V × PElem V × PElem V)) : List (Sol V) :=
  ps.foldl (fun l p => l.flatMap fun σ => graph.filterMap (matchTriple σ p)) [fun _ => none]

/-- Two solutions do not disagree. -/
def compatible (n : Nat) (σ τ : Sol V) : Bool := (List.range n).all fun x => (σ x).isNone || (τ x).isNone || σ x == τ x

def both (σ τ : Sol V) : Sol V := fun x => (σ x).or (τ x)

def join (n : Nat) (l r : List (Sol V)) : List (Sol V) := l.flatMap fun σ => (r.filter (compatible n σ)).map (both σ)

def leftJoin (n : Nat) (l r : List (Sol V)) : List (Sol V) :=
  l.flatMap fun σ => if (r.filter (compatible n σ)).isEmpty then [σ] else (r.filter (compatible n σ)).map (both σ)

/-- MINUS: solutions without a compatible one that shares a variable. -/
def minus (n : Nat) (l r : List (Sol V)) : List (Sol V) :=
  l.filter fun σ => !r.any fun τ => compatible n σ τ && (List.range n).any fun x => (σ x).isSome && (τ x).isSome

/-- NOT EXISTS: solutions without a compatible one. -/
def without (n : Nat) (l r : List (Sol V)) : List (Sol V) := l.filter fun σ => !r.any (compatible n σ)

/-- The rows of VALUES. -/
def valueRows (v : List Nat × List (List V)) : List (Sol V) := v.2.map fun row x => ((v.1.zip row).find? (·.1 == x)).map (·.2)

mutual
/-- The solutions of a group: triple patterns, VALUES and UNIONs are joined, OPTIONAL parts are added, MINUS and NOT EXISTS parts are taken away. -/
def eval (n : Nat) (graph : List (V × V × V)) : Grp V → List (Sol V)
  | .mk ps vs os us ns ms =>
    let joined := (vs.map valueRows ++ unions n graph us).foldl (join n) (triples graph ps)
    let l := (evalAll n graph os).foldl (leftJoin n) joined
    let l := (evalAll n graph ms).foldl (minus n) l
    (evalAll n graph ns).foldl (without n) l
def evalAll (n : Nat) (graph : List (V × V × V)) : List (Grp V) → List (List (Sol V))
  | [] => []
  | g :: l => eval n graph g :: evalAll n graph l
def unions (n : Nat) (graph : List (V × V × V)) : List (List (Grp V)) → List (List (Sol V))
  | [] => []
  | u :: l => (evalAll n graph u).flatten :: unions n graph l
end

mutual
/-- All terms are known, and no UNION is without alternatives. -/
def complete {T : Type} (known : T → Bool) : Grp T → Bool
  | .mk ps vs os us ns ms => (ps.all fun p => elem p.1 && elem p.2.1 && elem p.2.2) && (vs.all fun v => v.2.all (·.all known)) && completeAll known os
      && completeUnions known us && completeAll known ns && completeAll known ms
where
  elem : PElem T → Bool
    | .var _ => true
    | .const c => known c
def completeAll {T : Type} (known : T → Bool) : List (Grp T) → Bool
  | [] => true
  | g :: l => complete known g && completeAll known l
def completeUnions {T : Type} (known : T → Bool) : List (List (Grp T)) → Bool
  | [] => true
  | u :: l => !u.isEmpty && completeAll known u && completeUnions known l
end

mutual
/-- The terms in VALUES and in NOT EXISTS are known. -/
def fine {T : Type} (known : T → Bool) : Grp T → Bool
  | .mk _ vs os us ns ms => (vs.all fun v => v.2.all (·.all known)) && fineAll known os && fineUnions known us && (completeAll known ns && fineAll known ns) && fineAll known ms
def fineAll {T : Type} (known : T → Bool) : List (Grp T) → Bool
  | [] => true
  | g :: l => fine known g && fineAll known l
def fineUnions {T : Type} (known : T → Bool) : List (List (Grp T)) → Bool
  | [] => true
  | u :: l => fineAll known u && fineUnions known l
end

end Trident.Sparql.Analysis.Spec
