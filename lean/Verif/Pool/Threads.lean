import Verif.Pool.Model
/-!
# The string pool: the two threads

Models the hand-over of full blocks to the compression thread and the destructor (`/repo/src/trident/tree/stringbuffer.cpp`,
150-196 `compressBlocks`, 327-347 `compressLastBlock`, 583-604 the destructor).  One step is one lock, test, wait, store or notification.
`wait` releases the mutex and blocks in one step, as the standard requires; a blocked thread goes on only after a notification, or
spontaneously (`spurious`), which the standard permits and does not promise.  Memory is sequentially consistent (the code has no atomics for
`bufferToCompress` and `threadRunning`: outside of the lock this is a data race in C++; here it is the best case).
-/
namespace Trident.SPool

abbrev Block := List UInt8

/-- `bufferToCompress`: NULL, a block, or `FINISH_THREAD`. -/
inductive Slot | empty | block (b : Block) | finish
  deriving DecidableEq

/-- Where the thread that uses the pool is. -/
inductive WPc
  | idle                    -- not in a call that blocks
  | lock (b : Block)        -- stringbuffer.cpp:328, about to lock
  | check (b : Block)       -- 329, holds the lock
  | goWait (b : Block)      -- 329, has seen a full slot, still holds the lock
  | wait (b : Block)        -- 330
  | notify                  -- 337, the block is in the slot
  | dLock                   -- 590
  | dCheck                  -- 591
  | dGoWait
  | dWait                   -- 592
  | dSet                    -- 597, after `unlock`
  | dNotify                 -- 598
  | tCheck                  -- 601, the predicate of `compressTerm.wait`
  | tGoWait
  | tWait
  | closed                  -- 603, the rest of the destructor
  deriving DecidableEq

/-- Where the compression thread is. -/
inductive TPc
  | lock                    -- stringbuffer.cpp:156
  | check                   -- 157
  | goWait
  | wait                    -- 158
  | take                    -- 160-162, has seen a full slot, holds the lock
  | notify (s : Slot)       -- 165
  | work (b : Block)        -- 171-195
  | stop                    -- 198, about to clear `threadRunning`
  | tNotify                 -- 199
  | exit
  deriving DecidableEq

inductive Who | writer | thread
  deriving DecidableEq

structure St where
  w : WPc
  t : TPc
  lock : Option Who
  slot : Slot
  running : Bool
  /-- the blocks of the calls of `compressLastBlock` that passed the hand-over, in order -/
  handed : List Block
  /-- the blocks compressed and written to the file, in order -/
  file : List Block
  deriving DecidableEq

/-- stringbuffer.cpp:84-90. -/
def St.init : St := ⟨.idle, .lock, none, .empty, true, [], []⟩

inductive Label | client | internal | spurious
  deriving DecidableEq

/-- `compressWait.notify_one()` by the user's thread: wakes the compression thread if it waits. -/
def wakeThread (t : TPc) : TPc := if t = .wait then .lock else t

/-- `compressWait.notify_one()` by the compression thread. -/
def wakeWriter : WPc → WPc
  | .wait b => .lock b
  | .dWait => .dLock
  | w => w

/-- `compressTerm.notify_one()`. -/
def wakeTerm : WPc → WPc
  | .tWait => .tCheck
  | w => w

inductive Step : Label → St → St → Prop
  -- the user's thread
  | call (s : St) (b : Block) : s.w = .idle → Step .client s { s with w := .lock b }
  | destroy (s : St) : s.w = .idle → Step .client s { s with w := .dLock }
  | wLock (s : St) (b : Block) : s.w = .lock b → s.lock = none → Step .internal s { s with w := .check b, lock := some .writer }
  | wFull (s : St) (b : Block) : s.w = .check b → s.slot ≠ .empty → Step .internal s { s with w := .goWait b }
  | wWait (s : St) (b : Block) : s.w = .goWait b → Step .internal s { s with w := .wait b, lock := none }
  | wPut (s : St) (b : Block) : s.w = .check b → s.slot = .empty →
      Step .internal s { s with w := .notify, slot := .block b, lock := none, handed := s.handed ++ [b] }
  | wNotify (s : St) : s.w = .notify → Step .internal s { s with w := .idle, t := wakeThread s.t }
  | dLock (s : St) : s.w = .dLock → s.lock = none → Step .internal s { s with w := .dCheck, lock := some .writer }
  | dFull (s : St) : s.w = .dCheck → s.slot ≠ .empty → Step .internal s { s with w := .dGoWait }
  | dWait (s : St) : s.w = .dGoWait → Step .internal s { s with w := .dWait, lock := none }
  | dUnlock (s : St) : s.w = .dCheck → s.slot = .empty → Step .internal s { s with w := .dSet, lock := none }
  | dSet (s : St) : s.w = .dSet → Step .internal s { s with w := .dNotify, slot := .finish }
  | dNotify (s : St) : s.w = .dNotify → Step .internal s { s with w := .tCheck, t := wakeThread s.t }
  | tDone (s : St) : s.w = .tCheck → s.running = false → Step .internal s { s with w := .closed }
  | tRunning (s : St) : s.w = .tCheck → s.running = true → Step .internal s { s with w := .tGoWait }
  | tWait (s : St) : s.w = .tGoWait → Step .internal s { s with w := .tWait }
  -- the compression thread
  | cLock (s : St) : s.t = .lock → s.lock = none → Step .internal s { s with t := .check, lock := some .thread }
  | cEmpty (s : St) : s.t = .check → s.slot = .empty → Step .internal s { s with t := .goWait }
  | cWait (s : St) : s.t = .goWait → Step .internal s { s with t := .wait, lock := none }
  | cFull (s : St) : s.t = .check → s.slot ≠ .empty → Step .internal s { s with t := .take }
  | cTake (s : St) : s.t = .take → Step .internal s { s with t := .notify s.slot, slot := .empty, lock := none }
  | cNotify (s : St) (b : Block) : s.t = .notify (.block b) → Step .internal s { s with t := .work b, w := wakeWriter s.w }
  | cNotifyEnd (s : St) : s.t = .notify .finish → Step .internal s { s with t := .stop, w := wakeWriter s.w }
  | cWork (s : St) (b : Block) : s.t = .work b → Step .internal s { s with t := .lock, file := s.file ++ [b] }
  | cStop (s : St) : s.t = .stop → Step .internal s { s with t := .tNotify, running := false }
  | cTerm (s : St) : s.t = .tNotify → Step .internal s { s with t := .exit, w := wakeTerm s.w }
  -- wake-ups without a notification
  | spuriousW (s : St) : Step .spurious s { s with w := wakeTerm (wakeWriter s.w) }
  | spuriousC (s : St) : Step .spurious s { s with t := wakeThread s.t }

/-- The states that can be reached by steps of the permitted kinds. -/
inductive Reach (allow : Label → Prop) : St → Prop
  | init : Reach allow St.init
  | step {l s s'} : Reach allow s → allow l → Step l s s' → Reach allow s'

end Trident.SPool
