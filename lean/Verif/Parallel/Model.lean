/-!
# Parallel loops, the parallel sort and the queue between threads

Models `/repo/include/trident/utils/parallel.h`.
-/
namespace Trident.Par

/-! ## parallel_for -/

/-- parallel.h:155-166, the loop over the threads: the ranges given to other threads, then the bounds of the last chunk.  Sizes are natural
numbers: `end + delta` does not exceed 64 bits. -/
def chunks (stop delta : Nat) : Nat → Nat → Nat → List (Nat × Nat) × Nat
  | 0, b, _ => ([], b)
  | left + 1, b, e =>
    if e < stop then
      if e + delta ≥ stop then ([], e)
      else
        let r := chunks stop delta left e (e + delta)
        ((e, e + delta) :: r.1, r.2)
    else ([], b)

/-- parallel.h:134-175 `parallel_for`: the ranges the body is called with, for `nthreads ≥ 1` threads.  The calls may run in any order. -/
def calls (begin stop grain nthreads : Nat) : List (Nat × Nat) :=
  let delta := max grain ((stop - begin + nthreads - 1) / nthreads)
  let r := chunks stop delta nthreads 0 0
  r.1 ++ [(r.2, stop)]

/-! ## sort_int -/

/-- `std::inplace_merge` (C++ standard library): of equal elements those of the first range come first. -/
def mergeBy {α : Type} (lt : α → α → Bool) : List α → List α → List α
  | [], b => b
  | a, [] => a
  | x :: a, y :: b => if lt y x then y :: mergeBy lt (x :: a) b else x :: mergeBy lt a (y :: b)
termination_by a b => a.length + b.length

/-- parallel.h:98-112 `sort_int`.  `srt` is `std::sort`.  The two halves are sorted at the same time, but share no element, so that the order
in which their steps alternate does not matter. -/
def sortInt {α : Type} (srt : List α → List α) (lt : α → α → Bool) (nthreads : Int) (l : List α) : List α :=
  if l.length ≤ 1024 ∨ nthreads < 2 then srt l
  else mergeBy lt (sortInt srt lt (nthreads / 2) (l.take (l.length / 2))) (sortInt srt lt (nthreads / 2) (l.drop (l.length / 2)))
termination_by nthreads.toNat

/-! ## ConcurrentQueue -/

/-- Where a consumer is: not in `pop_wait`, in `cv.wait` without a notification, or notified but not yet running again. -/
inductive At
  | out
  | asleep
  | woken
  deriving DecidableEq

/-- parallel.h:178-186: the queue, with the consumers and what has been pushed and taken so far. -/
structure Q (α : Type) where
  q : List α
  cs : List At
  pushed : List α
  taken : List α

/-- parallel.h:188-214.  Each step holds the mutex.  `notify_one` wakes one of the sleeping consumers, any of them.  A sleeping consumer can also wake
without a notification. -/
inductive Step {α : Type} : Q α → Q α → Prop
  | push (s : Q α) (x : α) (h : At.asleep ∉ s.cs) : Step s { s with q := s.q ++ [x], pushed := s.pushed ++ [x] }
  | pushWake (s : Q α) (x : α) (c : Nat) (h : s.cs[c]? = some .asleep) :
      Step s { s with q := s.q ++ [x], pushed := s.pushed ++ [x], cs := s.cs.set c .woken }
  | take (s : Q α) (x : α) (r : List α) (c : Nat) (w : At) (h : s.cs[c]? = some w) (hq : s.q = x :: r) :
      Step s { s with q := r, taken := s.taken ++ [x], cs := s.cs.set c .out }
  | sleep (s : Q α) (c : Nat) (w : At) (h : s.cs[c]? = some w) (hq : s.q = []) : Step s { s with cs := s.cs.set c .asleep }

inductive Steps {α : Type} : Q α → Q α → Prop
  | refl (s : Q α) : Steps s s
  | tail {s t u : Q α} : Steps s t → Step t u → Steps s u

def Q.start (α : Type) (n : Nat) : Q α := ⟨[], List.replicate n .out, [], []⟩

end Trident.Par
