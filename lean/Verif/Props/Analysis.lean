import Verif.Sparql.AnalysisProofs
/-!
# C82: constants that are not stored

A query over the stored triples has the same solutions when the terms are replaced by ids and the parts with unknown terms are dropped.  `Spec.eval` gives the
solutions of a group graph pattern (Verif/Sparql/AnalysisSpec.lean); it is used with terms and with ids.
-/
namespace Trident.Sparql.Analysis

open Spec

/-- C82: the solutions of a pattern over the terms of the stored triples are those of the translated pattern over the ids, with the same multiplicities; if the
pattern is declared empty, it has none.  `dec` is the term of an id.  Missing: unknown terms in VALUES and NOT EXISTS, see below. -/
theorem C82_unknown_partial {T I : Type} [DecidableEq T] [DecidableEq I] {enc : T → Option I} {dec : I → T} (hd : ∀ t i, enc t = some i ↔ dec i = t) (n : Nat)
    (stored : List (I × I × I)) (g : Grp T) (hg : fine (fun t => (enc t).isSome) g = true) :
    eval n (stored.map fun t => (dec t.1, dec t.2.1, dec t.2.2)) g
      = match transform enc g with
        | some q => (eval n stored q).map fun σ x => (σ x).map dec
        | none => [] := by
  have := same (enc := enc) (dec := dec) hd n stored (known := fun t => (enc t).isSome) (fun _ h => h) g hg
  match h : transform enc g with
  | some q => rw [h] at this; exact this
  | none => rw [h] at this; exact this

/-! ## Example: the terms 10, 11, 12 and 13 are stored -/

def encEx (t : Nat) : Option (Fin 4) := if h : 10 ≤ t ∧ t < 14 then some ⟨t - 10, by omega⟩ else none
def decEx (i : Fin 4) : Nat := i.val + 10

theorem dictEx (t : Nat) (i : Fin 4) : encEx t = some i ↔ decEx i = t := by
  unfold encEx decEx
  constructor
  · intro h
    split at h
    · cases h
      simp only
      omega
    · cases h
  · intro h
    have := i.isLt
    rw [dif_pos (by omega)]
    congr 1
    apply Fin.ext
    simp only
    omega

def storedEx : List (Fin 4 × Fin 4 × Fin 4) := [(0, 1, 2), (2, 1, 0), (3, 1, 0)]

def v (x : Nat) : PElem Nat := .var x
def c (t : Nat) : PElem Nat := .const t

/-- `?0 11 ?1  OPTIONAL { ?1 99 ?2 }  OPTIONAL { ?1 11 ?3 }  { ?0 98 ?1 } UNION { ?0 11 10 }  MINUS { ?0 97 ?1 }  MINUS { 13 11 ?1 . ?0 11 12 }` -/
def groupEx : Grp Nat :=
  .mk [(v 0, c 11, v 1)] [] [.mk [(v 1, c 99, v 2)] [] [] [] [] [], .mk [(v 1, c 11, v 3)] [] [] [] [] []]
    [[.mk [(v 0, c 98, v 1)] [] [] [] [] [], .mk [(v 0, c 11, c 10)] [] [] [] [] []]] [] [.mk [(v 0, c 97, v 1)] [] [] [] [] [], .mk [(c 13, c 11, v 1), (v 0, c 11, c 12)] [] [] [] [] []]

/-- Two solutions; the unknown parts are dropped. -/
example : (transform encEx groupEx).isSome = true
    ∧ (eval 4 (storedEx.map fun t => (decEx t.1, decEx t.2.1, decEx t.2.2)) groupEx).map (fun σ => (List.range 4).map σ)
      = [[some 12, some 10, none, some 12], [some 13, some 10, none, some 12]] := by decide +kernel

example := C82_unknown_partial dictEx 4 storedEx groupEx (by decide +kernel)

/-- A pattern with an unknown term is declared empty. -/
example : transform encEx (.mk [(v 0, c 11, v 1), (v 0, c 99, v 2)] [] [] [] [] []) |>.isNone := by decide +kernel

/-! ## Violations -/

/-- One unknown term in VALUES makes the query empty, although the other values have solutions: `?0 11 ?1 VALUES ?0 { 10 99 }`. -/
theorem C82_values_violated : ∃ g : Grp Nat, (transform encEx g).isNone = true
    ∧ (eval 2 (storedEx.map fun t => (decEx t.1, decEx t.2.1, decEx t.2.2)) g).map (fun σ => (List.range 2).map σ) = [[some 10, some 12]] :=
  ⟨.mk [(v 0, c 11, v 1)] [([0], [[10], [99]])] [] [] [] [], by decide +kernel⟩

/-- An unknown term in NOT EXISTS makes the query empty, although the condition is then always true: `?0 11 ?1 FILTER NOT EXISTS { ?0 99 ?1 }`. -/
theorem C82_not_exists_violated : ∃ g : Grp Nat, (transform encEx g).isNone = true
    ∧ (eval 2 (storedEx.map fun t => (decEx t.1, decEx t.2.1, decEx t.2.2)) g).length = storedEx.length :=
  ⟨.mk [(v 0, c 11, v 1)] [] [] [] [.mk [(v 0, c 99, v 1)] [] [] [] [] []] [], by decide +kernel⟩

end Trident.Sparql.Analysis
