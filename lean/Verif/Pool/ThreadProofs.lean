import Verif.Pool.Threads
/-!
# The string pool: invariants of the two threads

Without the contents of the blocks a state is one of finitely many; what does not depend on the contents is checked on all of them.
-/
namespace Trident.SPool

inductive WK | idle | lock | check | goWait | wait | notify | dLock | dCheck | dGoWait | dWait | dSet | dNotify | tCheck | tGoWait | tWait | closed
  deriving DecidableEq
inductive TK | lock | check | goWait | wait | take | notifyE | notifyB | notifyF | work | stop | tNotify | exit
  deriving DecidableEq
inductive SK | empty | block | finish
  deriving DecidableEq

structure Ctl where
  w : WK
  t : TK
  lock : Option Who
  slot : SK
  running : Bool
  deriving DecidableEq

def WPc.kind : WPc → WK
  | .idle => .idle | .lock _ => .lock | .check _ => .check | .goWait _ => .goWait | .wait _ => .wait | .notify => .notify
  | .dLock => .dLock | .dCheck => .dCheck | .dGoWait => .dGoWait | .dWait => .dWait | .dSet => .dSet | .dNotify => .dNotify
  | .tCheck => .tCheck | .tGoWait => .tGoWait | .tWait => .tWait | .closed => .closed

def TPc.kind : TPc → TK
  | .lock => .lock | .check => .check | .goWait => .goWait | .wait => .wait | .take => .take
  | .notify .empty => .notifyE | .notify (.block _) => .notifyB | .notify .finish => .notifyF
  | .work _ => .work | .stop => .stop | .tNotify => .tNotify | .exit => .exit

def Slot.kind : Slot → SK
  | .empty => .empty | .block _ => .block | .finish => .finish

def St.ctl (s : St) : Ctl := ⟨s.w.kind, s.t.kind, s.lock, s.slot.kind, s.running⟩

def wakeT (t : TK) : TK := if t = .wait then .lock else t
def wakeW : WK → WK
  | .wait => .lock | .dWait => .dLock | w => w
def wakeE : WK → WK
  | .tWait => .tCheck | w => w

/-- The internal steps of a control state. -/
def inner (c : Ctl) : List Ctl :=
  (match c.w with
    | .idle => []
    | .lock => if c.lock = none then [{ c with w := .check, lock := some .writer }] else []
    | .check => if c.slot ≠ .empty then [{ c with w := .goWait }] else [{ c with w := .notify, slot := .block, lock := none }]
    | .goWait => [{ c with w := .wait, lock := none }]
    | .wait => []
    | .notify => [{ c with w := .idle, t := wakeT c.t }]
    | .dLock => if c.lock = none then [{ c with w := .dCheck, lock := some .writer }] else []
    | .dCheck => if c.slot ≠ .empty then [{ c with w := .dGoWait }] else [{ c with w := .dSet, lock := none }]
    | .dGoWait => [{ c with w := .dWait, lock := none }]
    | .dWait => []
    | .dSet => [{ c with w := .dNotify, slot := .finish }]
    | .dNotify => [{ c with w := .tCheck, t := wakeT c.t }]
    | .tCheck => if c.running = false then [{ c with w := .closed }] else [{ c with w := .tGoWait }]
    | .tGoWait => [{ c with w := .tWait }]
    | .tWait => []
    | .closed => []) ++
  (match c.t with
    | .lock => if c.lock = none then [{ c with t := .check, lock := some .thread }] else []
    | .check => if c.slot = .empty then [{ c with t := .goWait }] else [{ c with t := .take }]
    | .goWait => [{ c with t := .wait, lock := none }]
    | .wait => []
    | .take => [{ c with t := (match c.slot with | .empty => .notifyE | .block => .notifyB | .finish => .notifyF), slot := .empty, lock := none }]
    | .notifyE => []
    | .notifyB => [{ c with t := .work, w := wakeW c.w }]
    | .notifyF => [{ c with t := .stop, w := wakeW c.w }]
    | .work => [{ c with t := .lock }]
    | .stop => [{ c with t := .tNotify, running := false }]
    | .tNotify => [{ c with t := .exit, w := wakeE c.w }]
    | .exit => [])

/-- The other steps. -/
def outer (c : Ctl) : List Ctl :=
  (if c.w = .idle then [{ c with w := .lock }, { c with w := .dLock }] else []) ++ [{ c with w := wakeE (wakeW c.w) }, { c with t := wakeT c.t }]

def next (c : Ctl) : List Ctl := inner c ++ outer c

theorem wakeThread_kind (t : TPc) : (wakeThread t).kind = wakeT t.kind := by
  unfold wakeThread wakeT
  cases t <;> simp [TPc.kind]
  case notify x => cases x <;> simp

theorem wakeWriter_kind (w : WPc) : (wakeWriter w).kind = wakeW w.kind := by
  cases w <;> rfl

theorem wakeTerm_kind (w : WPc) : (wakeTerm w).kind = wakeE w.kind := by
  cases w <;> rfl

theorem kind_empty {x : Slot} : x.kind = .empty ↔ x = .empty := by cases x <;> simp [Slot.kind]

theorem step_inner {s s' : St} (hs : Step .internal s s') : s'.ctl ∈ inner s.ctl := by
  obtain ⟨w, t, lk, sl, run, handed, file⟩ := s
  cases hs <;> simp only at * <;> subst_vars <;> simp only [St.ctl, wakeThread_kind, wakeWriter_kind, wakeTerm_kind] <;>
    (try generalize w.kind = k) <;> (try generalize t.kind = k)
  all_goals first
    | (simp [inner, WPc.kind, TPc.kind, Slot.kind]; done)
    | (rename_i h; simp [inner, WPc.kind, TPc.kind, Slot.kind, kind_empty, h]; done)
    | (rename_i h; cases sl <;> simp [inner, WPc.kind, TPc.kind, Slot.kind] at h ⊢; done)
    | (cases sl <;> simp [inner, WPc.kind, TPc.kind, Slot.kind]; done)

theorem step_next {l : Label} {s s' : St} (hs : Step l s s') : s'.ctl ∈ next s.ctl := by
  cases l with
  | internal => exact List.mem_append_left _ (step_inner hs)
  | client =>
    apply List.mem_append_right
    cases hs <;> rename_i h <;> simp [St.ctl, outer, WPc.kind, h]
  | spurious =>
    apply List.mem_append_right
    cases hs <;> simp [St.ctl, outer, wakeThread_kind, wakeWriter_kind, wakeTerm_kind]

/-! ## All control states -/

def WK.all : List WK := [.idle, .lock, .check, .goWait, .wait, .notify, .dLock, .dCheck, .dGoWait, .dWait, .dSet, .dNotify, .tCheck, .tGoWait, .tWait, .closed]
def TK.all : List TK := [.lock, .check, .goWait, .wait, .take, .notifyE, .notifyB, .notifyF, .work, .stop, .tNotify, .exit]

def allC : List Ctl :=
  WK.all.flatMap fun w => TK.all.flatMap fun t => [none, some Who.writer, some Who.thread].flatMap fun l =>
    [SK.empty, SK.block, SK.finish].flatMap fun s => [true, false].map fun r => ⟨w, t, l, s, r⟩

theorem mem_allC (c : Ctl) : c ∈ allC := by
  obtain ⟨w, t, l, s, r⟩ := c
  unfold allC
  refine List.mem_flatMap.2 ⟨w, by cases w <;> decide, List.mem_flatMap.2 ⟨t, by cases t <;> decide, List.mem_flatMap.2 ⟨l, ?_, List.mem_flatMap.2 ⟨s, by cases s <;> decide, ?_⟩⟩⟩⟩
  · cases l with
    | none => decide
    | some x => cases x <;> decide
  · exact List.mem_map.2 ⟨r, by cases r <;> decide, rfl⟩

theorem all_ctl {P : Ctl → Bool} (h : allC.all P = true) (c : Ctl) : P c = true := List.all_eq_true.1 h c (mem_allC c)

/-- The writer holds the mutex. -/
def WK.locks : WK → Bool
  | .check | .goWait | .dCheck | .dGoWait => true
  | _ => false

def TK.locks : TK → Bool
  | .check | .goWait | .take => true
  | _ => false

/-- The destructor has set `FINISH_THREAD`. -/
def WK.late : WK → Bool
  | .dNotify | .tCheck | .tGoWait | .tWait | .closed => true
  | _ => false

/-- The compression thread has seen `FINISH_THREAD`. -/
def TK.ended : TK → Bool
  | .notifyF | .stop | .tNotify | .exit => true
  | _ => false

/-- The invariant of the control. -/
def good (c : Ctl) : Bool :=
  (decide (c.lock = some .writer) == c.w.locks) && (decide (c.lock = some .thread) == c.t.locks) &&
  (c.w != .dSet || c.slot == .empty) && (c.t != .take || c.slot != .empty) && (c.t != .notifyE) &&
  (c.w.late == (c.slot == .finish || c.t.ended)) && (!c.t.ended || c.slot == .empty) &&
  (!c.running == (c.t == .tNotify || c.t == .exit)) &&
  (c.t != .wait || c.slot == .empty || c.w == .notify || c.w == .dNotify || c.slot == .finish) &&
  (c.t != .goWait || c.slot == .empty || c.slot == .finish) &&
  (!(c.w == .wait || c.w == .dWait) || c.slot != .empty || c.t == .notifyB || c.t == .notifyF) &&
  (!(c.w == .goWait || c.w == .dGoWait) || c.slot != .empty) &&
  (c.w != .closed || !c.running)

theorem good_fact {P : Ctl → Bool} (h : (allC.all fun c => !good c || P c) = true) {c : Ctl} (g : good c = true) : P c = true := by
  have := all_ctl h c
  rw [g] at this
  simpa using this

theorem good_next : (allC.all fun c => !good c || (next c).all good) = true := by decide +kernel

/-- The number of internal steps is bounded by this. -/
def rank (c : Ctl) : Nat :=
  (match c.w with
    | .idle => 0 | .lock => 14 | .check => 13 | .goWait => 12 | .wait => 11 | .notify => 4
    | .dLock => 17 | .dCheck => 16 | .dGoWait => 15 | .dWait => 14 | .dSet => 15 | .dNotify => 6 | .tCheck => 2 | .tGoWait => 1 | .tWait => 0 | .closed => 0) +
  (match c.t with
    | .lock => 3 | .check => 2 | .goWait => 1 | .wait => 0 | .take => 1 | .notifyE => 0 | .notifyB => 8 | .notifyF => 8 | .work => 4
    | .stop => 4 | .tNotify => 3 | .exit => 0) +
  (match c.slot with | .empty => 0 | _ => 8)

theorem rank_inner : (allC.all fun c => !good c || (inner c).all fun c' => decide (rank c' < rank c)) = true := by decide +kernel

/-- A state in which no thread can go on. -/
theorem stuck_good : (allC.all fun c => !good c || (!(inner c).isEmpty || c.w == .idle && c.slot == .empty && c.t == .wait ||
    c.w == .closed && c.t == .exit && c.slot == .empty || c.w == .tWait && c.slot == .finish && c.t == .wait || c.w == .tWait && c.t == .exit)) = true := by decide +kernel

theorem reach_good {allow : Label → Prop} {s : St} (h : Reach allow s) : good s.ctl = true := by
  induction h with
  | init => decide
  | @step _ s _ _ _ hs ih =>
    have := good_fact good_next ih
    exact List.all_eq_true.1 this _ (step_next hs)

/-! ## The blocks -/

/-- The block that the compression thread has taken and not written. -/
def TPc.held : TPc → List Block
  | .notify (.block b) => [b]
  | .work b => [b]
  | _ => []

def Slot.held : Slot → List Block
  | .block b => [b]
  | _ => []

theorem wakeThread_held (t : TPc) : (wakeThread t).held = t.held := by
  unfold wakeThread
  split
  · rename_i h; subst h; rfl
  · rfl

theorem step_order {l : Label} {s s' : St} (g : good s.ctl = true) (h : s.file ++ (s.t.held ++ s.slot.held) = s.handed) (hs : Step l s s') :
    s'.file ++ (s'.t.held ++ s'.slot.held) = s'.handed := by
  obtain ⟨w, t, lk, sl, run, handed, file⟩ := s
  have set : w = .dSet → sl = .empty := by
    rintro rfl
    have := good_fact (P := fun c => c.w != .dSet || c.slot == .empty) (by decide +kernel) g
    simpa [St.ctl, WPc.kind, kind_empty] using this
  have ne : t ≠ .notify .empty := by
    rintro rfl
    have := good_fact (P := fun c => c.t != .notifyE) (by decide +kernel) g
    simp [St.ctl, TPc.kind] at this
  cases hs <;> simp only at * <;> subst_vars
  all_goals first
    | (simp only [wakeThread_held]; done)
    | (simp [TPc.held, Slot.held]; done)
    | (cases sl <;> simp [TPc.held, Slot.held]; done)
    | (rw [set rfl]; simp [TPc.held, Slot.held]; done)

theorem reach_order {allow : Label → Prop} {s : St} (h : Reach allow s) : s.file ++ (s.t.held ++ s.slot.held) = s.handed := by
  induction h with
  | init => rfl
  | step h _ hs ih => exact step_order (reach_good h) ih hs

theorem held_le (t : TPc) (s : Slot) : (t.held ++ s.held).length ≤ 2 := by
  have h1 : t.held.length ≤ 1 := by unfold TPc.held; split <;> simp
  have h2 : s.held.length ≤ 1 := by unfold Slot.held; split <;> simp
  rw [List.length_append]; omega

/-- Every control step is a step. -/
theorem inner_step {s : St} (h : inner s.ctl ≠ []) : ∃ s', Step .internal s s' := by
  obtain ⟨w, t, lk, sl, run, handed, file⟩ := s
  have hw : (∃ s', Step .internal ⟨w, t, lk, sl, run, handed, file⟩ s') ∨
      (match w.kind with | .idle | .wait | .dWait | .tWait | .closed => True | .lock | .dLock => lk ≠ none | _ => False) := by
    cases w <;> simp only [WPc.kind]
    case idle => exact .inr trivial
    case lock b => by_cases h : lk = none
                   · exact .inl ⟨_, .wLock _ b rfl h⟩
                   · exact .inr h
    case check b => by_cases h : sl = .empty
                    · exact .inl ⟨_, .wPut _ b rfl h⟩
                    · exact .inl ⟨_, .wFull _ b rfl h⟩
    case goWait b => exact .inl ⟨_, .wWait _ b rfl⟩
    case wait => exact .inr trivial
    case notify => exact .inl ⟨_, .wNotify _ rfl⟩
    case dLock => by_cases h : lk = none
                  · exact .inl ⟨_, .dLock _ rfl h⟩
                  · exact .inr h
    case dCheck => by_cases h : sl = .empty
                   · exact .inl ⟨_, .dUnlock _ rfl h⟩
                   · exact .inl ⟨_, .dFull _ rfl h⟩
    case dGoWait => exact .inl ⟨_, .dWait _ rfl⟩
    case dWait => exact .inr trivial
    case dSet => exact .inl ⟨_, .dSet _ rfl⟩
    case dNotify => exact .inl ⟨_, .dNotify _ rfl⟩
    case tCheck => cases run
                   · exact .inl ⟨_, .tDone _ rfl rfl⟩
                   · exact .inl ⟨_, .tRunning _ rfl rfl⟩
    case tGoWait => exact .inl ⟨_, .tWait _ rfl⟩
    case tWait => exact .inr trivial
    case closed => exact .inr trivial
  have ht : (∃ s', Step .internal ⟨w, t, lk, sl, run, handed, file⟩ s') ∨
      (match t.kind with | .wait | .exit | .notifyE => True | .lock => lk ≠ none | _ => False) := by
    cases t <;> simp only [TPc.kind]
    case lock => by_cases h : lk = none
                 · exact .inl ⟨_, .cLock _ rfl h⟩
                 · exact .inr h
    case check => by_cases h : sl = .empty
                  · exact .inl ⟨_, .cEmpty _ rfl h⟩
                  · exact .inl ⟨_, .cFull _ rfl h⟩
    case goWait => exact .inl ⟨_, .cWait _ rfl⟩
    case wait => exact .inr trivial
    case take => exact .inl ⟨_, .cTake _ rfl⟩
    case notify x => cases x with
      | empty => exact .inr trivial
      | block b => exact .inl ⟨_, .cNotify _ b rfl⟩
      | finish => exact .inl ⟨_, .cNotifyEnd _ rfl⟩
    case work b => exact .inl ⟨_, .cWork _ b rfl⟩
    case stop => exact .inl ⟨_, .cStop _ rfl⟩
    case tNotify => exact .inl ⟨_, .cTerm _ rfl⟩
    case exit => exact .inr trivial
  rcases hw with hw | hw
  · exact hw
  rcases ht with ht | ht
  · exact ht
  exfalso
  apply h
  simp only [St.ctl, inner]
  have e1 : ∀ {k : WK}, w.kind = k → ∀ {j : TK}, t.kind = j → True := fun _ _ _ => trivial
  clear e1
  generalize hk : w.kind = k at *
  generalize hj : t.kind = j at *
  cases k <;> simp only at hw <;> cases j <;> simp only at ht <;> simp [*]

/-- `n` internal steps. -/
inductive Runs : Nat → St → St → Prop
  | refl (s) : Runs 0 s s
  | step {n s s' s''} : Runs n s s' → Step .internal s' s'' → Runs (n + 1) s s''

theorem runs_good {n : Nat} {s s' : St} (g : good s.ctl = true) (h : Runs n s s') : good s'.ctl = true ∧ n + rank s'.ctl ≤ rank s.ctl := by
  induction h with
  | refl => exact ⟨g, by omega⟩
  | step _ hs ih =>
    obtain ⟨g', hr⟩ := ih g
    have h1 := List.all_eq_true.1 (good_fact good_next g') _ (step_next hs)
    have h2 := List.all_eq_true.1 (good_fact (P := fun c => (inner c).all fun c' => decide (rank c' < rank c)) rank_inner g') _ (step_inner hs)
    simp only [decide_eq_true_eq] at h2
    exact ⟨h1, by omega⟩

theorem rank_le (c : Ctl) : rank c ≤ 33 := by
  have := all_ctl (P := fun c => decide (rank c ≤ 33)) (by decide +kernel) c
  simpa using this

theorem stuck_spec {s : St} (g : good s.ctl = true) (h : ¬ ∃ s', Step .internal s s') :
    (s.w = .idle ∧ s.slot = .empty ∧ s.t = .wait) ∨ (s.w = .closed ∧ s.t = .exit ∧ s.slot = .empty) ∨ (s.w = .tWait ∧ s.slot = .finish ∧ s.t = .wait) ∨
      (s.w = .tWait ∧ s.t = .exit) := by
  have h0 : inner s.ctl = [] := by
    by_cases e : inner s.ctl = []
    · exact e
    · exact absurd (inner_step e) h
  have kw : ∀ {w : WPc}, (w.kind = .idle ↔ w = .idle) ∧ (w.kind = .closed ↔ w = .closed) ∧ (w.kind = .tWait ↔ w = .tWait) := by
    intro w; cases w <;> simp [WPc.kind]
  have kt : ∀ {t : TPc}, (t.kind = .wait ↔ t = .wait) ∧ (t.kind = .exit ↔ t = .exit) := by
    intro t
    cases t <;> simp [TPc.kind]
    case notify x => cases x <;> simp
  have kf : ∀ {x : Slot}, x.kind = .finish ↔ x = .finish := by intro x; cases x <;> simp [Slot.kind]
  have := good_fact stuck_good g
  rw [h0] at this
  simp [St.ctl, kw, kt, kf, kind_empty] at this
  rcases this with ((⟨⟨a, b⟩, c⟩ | ⟨⟨a, b⟩, c⟩) | ⟨⟨a, b⟩, c⟩) | ⟨a, b⟩
  · exact .inl ⟨a, b, c⟩
  · exact .inr (.inl ⟨a, b, c⟩)
  · exact .inr (.inr (.inl ⟨a, b, c⟩))
  · exact .inr (.inr (.inr ⟨a, b⟩))

end Trident.SPool
