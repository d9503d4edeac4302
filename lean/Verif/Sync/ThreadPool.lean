import Verif.Common.Run

/-!
# C44: `ThreadPool` (`include/bss-util/ThreadPool.h`)

Any number of user threads and workers in any interleaving; one step is one access to shared state (`_tasks`, `_run`, the semaphore, the queue).
The queue is what C43 proves of `MicroLockQueue`: values come out once each and in order; `Pop` fails when the queue is empty, and it may also fail, at its
first test, when another `Pop` has taken effect since it began (`C43_empty`, `C43_spurious_empty_counterexample`).  A task is a number; while it runs it may call `AddTask` itself (not `Wait`).  `AddFunc` stores its arguments (`RingAlloc`, C37) and calls `AddTask`; `Future` is left out.
`AddThreads` increments `_run` and starts the worker in one step (a thread that starts later is a thread that is not scheduled yet);
it is not called any more once the destructor has been called, and the destructor is called once.
-/

namespace Verif.Sync.TP

/-- Who runs tasks. -/
inductive Role
  | wait
  | dtor
  | work
deriving DecidableEq

/-- Where a call of `AddTask` goes back to. -/
inductive Cont
  | user
  | task (t : Nat) (r : Role)
deriving DecidableEq

/-- Where a thread is. -/
inductive PC
  | idle
  /-- `AddTask`, `:55-56`: number of pushes still to do, number of instances. -/
  | add (t left total : Nat) (c : Cont)
  /-- `AddTask`, `:58`: number of notifications still to do. -/
  | ntf (left : Nat) (c : Cont)
  /-- `Wait`, the first test of `:81`. -/
  | test (r : Role)
  /-- `Pop` of `:81` or `:104`. -/
  | pop (r : Role)
  /-- `Pop` has begun, when this many pops had taken effect. -/
  | pop2 (r : Role) (n : Nat)
  /-- `:83` or `:106`. -/
  | exec (t : Nat) (r : Role)
  /-- `:84` or `:107`. -/
  | sub (t : Nat) (r : Role)
  /-- `:87`. -/
  | spin (r : Role)
  /-- `:100`. -/
  | wTest
  /-- `:102`. -/
  | wSem
  /-- `:111`. -/
  | wInc
  | gone
  /-- `:43`. -/
  | dLoad
  | dStore (v : Int)
  /-- `:44`. -/
  | dNtf (left : Nat)
  /-- `:45`. -/
  | dSpin
  | dEnd
deriving DecidableEq

/-- Shared state, and (not in the code) the instances of tasks added, begun and finished so far, whether the destructor has been called and whether it has
negated `_run`. -/
structure Sh where
  queue : List Nat
  tasks : Nat
  run : Int
  sem : Nat
  threads : Nat
  added : List Nat
  begun : List Nat
  finished : List Nat
  closing : Bool
  neg : Bool

/-- `:30-38`, before `AddThreads`. -/
def new : Sh := ⟨[], 0, 0, 0, 0, [], [], [], false, false⟩

/-- `:68-75`: one more worker. -/
def spawn (s : Sh) : Sh := { s with run := s.run + 1, threads := s.threads + 1 }

/-- What a thread does: call `AddTask`, `Wait` or the destructor, go on, or have its `Pop` fail because of another `Pop`. -/
inductive Act
  | addTask (t n : Nat)
  | wait
  | del
  | go
  | fail
deriving DecidableEq

/-- `:49-50`. -/
def instances (s : Sh) (n : Nat) : Nat := if n = 0 then s.threads else n

/-- `:52-53`. -/
def begin (s : Sh) (t n : Nat) (c : Cont) : PC × Sh :=
  (.add t (instances s n) (instances s n) c, { s with tasks := s.tasks + instances s n, added := s.added ++ List.replicate (instances s n) t })

/-- Going back from `AddTask`. -/
def back : Cont → PC
  | .user => .idle
  | .task t r => .exec t r

/-- After the inner loop. -/
def failed : Role → PC
  | .work => .wTest
  | r => .spin r

/-- `:81`, `:104`. -/
def popQ (s : Sh) (r : Role) : PC × Sh :=
  match s.queue with
  | [] => (failed r, s)
  | t :: q => (.exec t r, { s with queue := q, begun := s.begun ++ [t] })

/-- One step of one thread. -/
def step1 : Act → PC → Sh → Option (PC × Sh)
  | .addTask t n, .idle, s => some (begin s t n .user)
  | .addTask t n, .exec u r, s => some (begin s t n (.task u r))
  -- `:55-56`
  | .go, .add t (l + 1) k c, s => some (.add t l k c, { s with queue := s.queue ++ [t] })
  | .go, .add _ 0 k c, s => some (.ntf k c, s)
  -- `:58`
  | .go, .ntf (l + 1) c, s => some (.ntf l c, { s with sem := s.sem + 1 })
  | .go, .ntf 0 c, s => some (back c, s)
  -- `:81`
  | .wait, .idle, s => some (.test .wait, s)
  | .go, .test r, s => some (if 0 < s.run then .pop r else .spin r, s)
  | .go, .pop r, s => some (.pop2 r s.begun.length, s)
  | .go, .pop2 r _, s => some (popQ s r)
  | .fail, .pop2 r n, s => if n < s.begun.length then some (failed r, s) else none
  -- `:83`, `:106`: the task returns
  | .go, .exec t r, s => some (.sub t r, { s with finished := s.finished ++ [t] })
  -- `:84`, `:107`
  | .go, .sub _ r, s => some (if r = .work then .pop r else .test r, { s with tasks := s.tasks - 1 })
  -- `:87`, `:88`, `:42`
  | .go, .spin r, s => some (if 0 < s.tasks then .spin r else if r = .dtor then .dLoad else .idle, s)
  -- `:100`
  | .go, .wTest, s => some (if 0 < s.run then .wSem else .wInc, s)
  -- `:102`
  | .go, .wSem, s => if s.sem = 0 then none else some (.pop .work, { s with sem := s.sem - 1 })
  -- `:111`
  | .go, .wInc, s => some (.gone, { s with run := s.run + 1 })
  -- `:40-45`
  | .del, .idle, s => if s.closing then none else some (.test .dtor, { s with closing := true })
  | .go, .dLoad, s => some (.dStore s.run, s)
  | .go, .dStore v, s => some (.dNtf s.threads, { s with run := -v, neg := true })
  | .go, .dNtf (l + 1), s => some (.dNtf l, { s with sem := s.sem + 1 })
  | .go, .dNtf 0, s => some (.dSpin, s)
  | .go, .dSpin, s => some (if s.run < 0 then .dSpin else .dEnd, s)
  | _, _, _ => none

/-- The executions: any number of user threads; workers are added at any time before the destructor is called. -/
inductive Reach : Sh → List PC → Prop
  | new {k} : Reach new (List.replicate k .idle)
  | spawn {s ags} : Reach s ags → s.closing = false → Reach (spawn s) (ags ++ [.wTest])
  | step {s ags i a pc pc' s'} : Reach s ags → ags[i]? = some pc → step1 a pc s = some (pc', s') → Reach s' (ags.set i pc')

/-! ## Invariant -/

/-- The task (running or finished) that a thread has taken and not yet counted off. -/
def Cont.held : Cont → List Nat
  | .user => []
  | .task t _ => [t]

def PC.running : PC → List Nat
  | .exec t _ => [t]
  | .add _ _ _ c => c.held
  | .ntf _ c => c.held
  | _ => []

/-- Instances that `AddTask` has counted but not pushed yet. -/
def PC.pending : PC → List Nat
  | .add t l _ _ => List.replicate l t
  | _ => []

/-- The task that has returned and is not counted off yet. -/
def PC.ended : PC → List Nat
  | .sub t _ => [t]
  | _ => []

def Cont.role : Cont → Option Role
  | .user => none
  | .task _ r => some r

def PC.role : PC → Option Role
  | .add _ _ _ c => c.role
  | .ntf _ c => c.role
  | .test r => some r
  | .pop r => some r
  | .pop2 r _ => some r
  | .exec _ r => some r
  | .sub _ r => some r
  | .spin r => some r
  | .wTest => some .work
  | .wSem => some .work
  | .wInc => some .work
  | .dLoad => some .dtor
  | .dStore _ => some .dtor
  | .dNtf _ => some .dtor
  | .dSpin => some .dtor
  | .dEnd => some .dtor
  | .idle => none
  | .gone => none

/-- A worker that has not exited. -/
def PC.worker (pc : PC) : Bool := pc.role == some .work

/-- The thread in the destructor. -/
def PC.closer (pc : PC) : Bool := pc.role == some .dtor

/-- Sum over threads. -/
def tot (f : PC → Nat) : List PC → Nat
  | [] => 0
  | x :: l => f x + tot f l

/-- 0 or 1. -/
def one (b : Bool) : Nat := if b then 1 else 0

/-- Notifications that the destructor still has to do. -/
def PC.dleft : PC → Nat
  | .dNtf l => l
  | _ => 0

/-- In the destructor, before it stores `_run`. -/
def PC.early : PC → Bool
  | .dNtf _ | .dSpin | .dEnd => false
  | pc => pc.closer

def PC.sleeps (pc : PC) : Bool := pc == .wSem

/-- Bound by the state of the thread. -/
def pcOk (s : Sh) : PC → Prop
  | .add _ l k _ => l ≤ k
  | .test r | .spin r => r ≠ .work
  | .wInc | .gone => s.neg = true
  | .dStore v => v = s.run
  | .dNtf _ | .dSpin | .dEnd => s.neg = true
  | _ => True

/-- Pushes or notifications are under way. -/
def PC.adds : PC → Bool
  | .add _ _ k _ => 0 < k
  | .ntf l _ => 0 < l
  | _ => false

def Cont.inTask : Cont → Bool
  | .user => false
  | .task _ _ => true

/-- Will make sure that somebody looks at the queue, or will look itself, when `n` pops have taken effect. -/
def PC.watch (n : Nat) : PC → Bool
  | .add _ _ k c => 0 < k || c.inTask
  | .ntf l c => 0 < l || c.inTask
  | .test _ => true
  | .pop _ => true
  | .pop2 _ m => m == n
  | .exec _ _ => true
  | .sub _ _ => true
  | _ => false

/-! ## Measure -/

def Cont.weight : Cont → Nat
  | .user => 0
  | .task _ _ => 7

/-- How many steps the thread can take at most. -/
def PC.weight (threads : Nat) : PC → Nat
  | .add _ l k c => 6 * l + 6 * k + 2 + c.weight
  | .ntf l c => 6 * l + 1 + c.weight
  | .test _ => 5
  | .pop _ => 4
  | .pop2 _ _ => 3
  | .exec _ _ => 7
  | .sub _ _ => 6
  | .spin _ => 1
  | .wTest => 2
  | .wSem => 0
  | .wInc => 1
  | .dLoad => 6 * threads + 4
  | .dStore _ => 6 * threads + 3
  | .dNtf l => 6 * l + 2
  | .dSpin => 1
  | .dEnd => 0
  | .idle => 0
  | .gone => 0

/-- How many steps (other than waiting) all threads together can take at most, if no new calls are made. -/
def measure (s : Sh) (ags : List PC) : Nat := 5 * s.queue.length + 5 * s.sem + tot (PC.weight s.threads) ags

/-- `n` steps, each of some thread that does not just wait, each while tasks are outstanding; no new calls are made. -/
inductive Goes : Nat → Sh → List PC → Sh → List PC → Prop
  | zero {s ags} : Goes 0 s ags s ags
  | step {n s ags i a pc pc' s' s2 ags2} : 0 < s.tasks → ags[i]? = some pc → (a = .go ∨ a = .fail) → step1 a pc s = some (pc', s') → ¬(pc' = pc ∧ s' = s) →
      Goes n s' (ags.set i pc') s2 ags2 → Goes (n + 1) s ags s2 ags2

end Verif.Sync.TP
