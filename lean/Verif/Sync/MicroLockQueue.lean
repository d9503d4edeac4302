import Verif.Sync.LocklessQueue

/-!
# C43: `MicroLockQueue` (`include/bss-util/LocklessQueue.h:128-220`)

Any number of threads, each pushing and popping; one step is one access to shared memory that another thread may change, in any interleaving
(sequentially consistent).  Nodes live in a heap; a node that was given back to the allocator is not there, and touching it is undefined
behaviour (`none`), with one exception: the first, unguarded test of `Pop` (`:171`) may read a node that was given back; it then sees
any value (the memory of the block allocator is never unmapped).  The allocator is outside: it returns any address that is not in use, so
addresses are used again.  Moving an item out leaves nothing behind in the node.  The length counter (`LENGTH`) is left out.
-/

namespace Verif.Sync.MLQ

open LQ (Node setN Path Has Holds)

variable {α : Type}

/-- Shared state, and (not in the code) the arguments of the calls of `Push`, the values linked in so far, the results of `Pop`, and the
value that a consumer has moved out before storing `_div`. -/
structure Sh (α : Type) where
  heap : Nat → Option (Node α)
  div : Nat
  last : Nat
  cflag : Bool
  pflag : Bool
  calls : List α
  done : List α
  rets : List α
  mv : Option α

/-- Where a thread is. -/
inductive PC (α : Type)
  | idle
  /-- `:209`, the node is made, waiting for `_pflag`. -/
  | pHave (n : Nat) (v : α)
  /-- `:210`. -/
  | pLink (n : Nat) (v : α)
  /-- `:211`. -/
  | pSet (n : Nat)
  /-- `:212`. -/
  | pUnl
  /-- `:171`, `_div` was read; (not in the code) the number of pops that had taken effect then. -/
  | peek (d k : Nat)
  /-- `:173`, waiting for `_cflag`. -/
  | cWait
  /-- `:174-175`. -/
  | cRead
  /-- `:179`. -/
  | cItem (ref n : Nat)
  /-- `:180`. -/
  | cSet (ref n : Nat) (v : α)
  /-- `:181`. -/
  | cUnl (ref : Nat) (v : α)
  /-- `:182-183`. -/
  | cDel (ref : Nat) (v : α)
  /-- `:188`. -/
  | cUnlE

/-- `:150-156`: the constructor. -/
def new (a : Nat) : Sh α := ⟨setN (fun _ => none) a (some ⟨0, none⟩), a, a, false, false, [], [], [], none⟩

/-- What a thread does: call `Push` (with the address given by the allocator), call `Pop`, or go on (with what it reads from a node that was given
back, if it does). -/
inductive Act (α : Type)
  | push (n : Nat) (v : α)
  | pop
  | go (junk : Nat)

/-- One step of one thread. -/
def step1 : Act α → PC α → Sh α → Option (PC α × Sh α)
  -- `:206-207`
  | .push n v, .idle, s => some (.pHave n v, { s with heap := setN s.heap n (some ⟨0, some v⟩), calls := s.calls ++ [v] })
  -- `:209`
  | .go _, .pHave n v, s => if s.pflag then some (.pHave n v, s) else some (.pLink n v, { s with pflag := true })
  -- `:210`
  | .go _, .pLink n v, s => (s.heap s.last).map fun x =>
      (.pSet n, { s with heap := setN s.heap s.last (some { x with next := n }), done := s.done ++ [v] })
  -- `:211`
  | .go _, .pSet n, s => some (.pUnl, { s with last := n })
  -- `:212`
  | .go _, .pUnl, s => some (.idle, { s with pflag := false })
  -- `:171`
  | .pop, .idle, s => some (.peek s.div s.rets.length, s)
  | .go junk, .peek d _, s => some (if ((s.heap d).map Node.next).getD junk = 0 then .idle else .cWait, s)
  -- `:173`
  | .go _, .cWait, s => if s.cflag then some (.cWait, s) else some (.cRead, { s with cflag := true })
  -- `:174-177`
  | .go _, .cRead, s => (s.heap s.div).map fun x => (if x.next = 0 then .cUnlE else .cItem s.div x.next, s)
  -- `:179`
  | .go _, .cItem r n, s => (s.heap n).bind fun x => x.item.map fun v =>
      (.cSet r n v, { s with heap := setN s.heap n (some { x with item := none }), mv := some v })
  -- `:180`
  | .go _, .cSet r n v, s => some (.cUnl r v, { s with div := n, rets := s.rets ++ [v], mv := none })
  -- `:181`
  | .go _, .cUnl r v, s => some (.cDel r v, { s with cflag := false })
  -- `:182-185`
  | .go _, .cDel r _, s => (s.heap r).map fun _ => (.idle, { s with heap := setN s.heap r none })
  -- `:188-189`
  | .go _, .cUnlE, s => some (.idle, { s with cflag := false })
  | _, _, _ => none

/-- The executions of any number of threads. -/
inductive Reach : Sh α → List (PC α) → Prop
  | new {a k} : 0 < a → Reach (new a) (List.replicate k .idle)
  | step {s ags i a pc pc' s'} : Reach s ags → ags[i]? = some pc → (∀ n v, a = .push n v → 0 < n ∧ s.heap n = none) →
      step1 a pc s = some (pc', s') → Reach s' (ags.set i pc')

/-! ## Invariant -/

/-- Holds `_pflag`. -/
def holdsP : PC α → Bool
  | .pLink _ _ | .pSet _ | .pUnl => true
  | _ => false

/-- Holds `_cflag`. -/
def holdsC : PC α → Bool
  | .cRead | .cItem _ _ | .cSet _ _ _ | .cUnl _ _ | .cUnlE => true
  | _ => false

/-- Nodes that belong to the thread. -/
def own : PC α → List Nat
  | .pHave n _ | .pLink n _ => [n]
  | .cUnl r _ | .cDel r _ => [r]
  | _ => []

/-- The value of a call of `Push` that has not taken effect yet. -/
def pend : PC α → List α
  | .pHave _ v | .pLink _ v => [v]
  | _ => []

/-- What is in the nodes that belong to the thread. -/
def ownOk (h : Nat → Option (Node α)) : PC α → Prop
  | .pHave n v | .pLink n v => n ≠ 0 ∧ h n = some ⟨0, some v⟩
  | .cUnl r _ | .cDel r _ => h r ≠ none
  | _ => True

/-- What the thread with `_pflag` knows about the end of the queue. -/
def pOk (last tail : Nat) : PC α → Prop
  | .pLink _ _ | .pUnl => last = tail
  | .pSet n => tail = n
  | _ => True

/-- What the thread with `_cflag` knows about the front of the queue. -/
def cOk (div : Nat) (D : List Nat) (mv : Option α) : PC α → Prop
  | .cRead | .cUnl _ _ | .cUnlE => mv = none
  | .cItem r n => mv = none ∧ r = div ∧ ∃ D', D = n :: D'
  | .cSet r n v => mv = some v ∧ r = div ∧ ∃ D', D = n :: D'
  | _ => True

/-- The values still to come. -/
def restOk (h : Nat → Option (Node α)) (mv : Option α) (D : List Nat) (vs : List α) : Prop :=
  match mv with
  | none => Holds h D vs
  | some v => ∃ n D' vs', D = n :: D' ∧ vs = v :: vs' ∧ Holds h D' vs'

/-- Sum over threads. -/
def tot (f : PC α → Nat) : List (PC α) → Nat
  | [] => 0
  | x :: l => f x + tot f l

/-- 0 or 1. -/
def one (b : Bool) : Nat := if b then 1 else 0

/-- How often a node belongs to the thread. -/
def oc (x : Nat) (pc : PC α) : Nat := (own pc).count x

/-- What the unguarded read of `_div` has seen. -/
def seen (s : Sh α) : PC α → Prop
  | .peek d k => k ≤ s.rets.length ∧ (k = s.rets.length → d = s.div)
  | _ => True

structure Inv (s : Sh α) (ags : List (PC α)) (D : List Nat) (tail : Nat) (vs : List α) : Prop where
  queue : Path s.heap s.div D tail
  stop : ∃ x, s.heap tail = some x ∧ x.next = 0
  pos : ∀ x ∈ D, x ≠ 0
  alive : ∀ x ∈ s.div :: D, s.heap x ≠ none
  uniq : ∀ x, (s.div :: D).count x + tot (oc x) ags ≤ 1
  vals : s.done = s.rets ++ vs
  rest : restOk s.heap s.mv D vs
  owns : ∀ (i : Nat) (pc : PC α), ags[i]? = some pc → ownOk s.heap pc ∧ pOk s.last tail pc ∧ cOk s.div D s.mv pc
  pflag : tot (fun pc => one (holdsP pc)) ags = one s.pflag
  cflag : tot (fun pc => one (holdsC pc)) ags = one s.cflag
  pfree : s.pflag = false → s.last = tail
  cfree : s.cflag = false → s.mv = none

end Verif.Sync.MLQ
