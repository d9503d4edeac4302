/-!
# C42: `LocklessQueue` (`include/bss-util/LocklessQueue.h:42-126`)

One producer thread and one consumer thread; one step is one access to shared memory, in any interleaving (sequentially consistent).  Nodes live in a
heap; a node that was given back to the allocator is not there, and touching it is undefined behaviour (`none`).  The allocator is outside (it
is used by the producer only): it returns any address that is not in use, so addresses are used again.  Moving an item out leaves nothing
behind in the node.  The length counter (`LENGTH`), which defaults to `void`, is left out.
-/

namespace Verif.Sync.LQ

variable {α : Type}

/-- `LocklessQueue.h:12-18` `LQ_QNode`. -/
structure Node (α : Type) where
  next : Nat
  item : Option α

/-- Shared state, and (not in the code) the arguments of the calls of `Push` so far, those that were published, and the results of `Pop`. -/
structure Sh (α : Type) where
  heap : Nat → Option (Node α)
  first : Nat
  div : Nat
  last : Nat
  calls : List α
  done : List α
  rets : List α

/-- Write a node. -/
def setN (h : Nat → Option (Node α)) (a : Nat) (n : Option (Node α)) : Nat → Option (Node α) := fun x => if x = a then n else h x

/-- Where the producer is, in `_produce` (`:105-121`). -/
inductive PPC (α : Type)
  | idle
  /-- `:108`, `_last` was read. -/
  | link (last : Nat) (v : α)
  /-- `:109`, the new node is linked but not constructed. -/
  | cons (last n : Nat) (v : α)
  /-- `:110`. -/
  | publish (last : Nat) (v : α)
  /-- `:114`, test of the loop. -/
  | gc
  /-- `:116-117`. -/
  | adv
  /-- `:118-119`. -/
  | del (tmp : Nat)

/-- Where the consumer is, in `Pop` (`:76-89`). -/
inductive CPC (α : Type)
  | idle
  /-- `:80`, `_div` was read. -/
  | cmp (div : Nat)
  /-- `:82`, about to read `div->next`. -/
  | next (div : Nat)
  /-- `:82`, about to move the item. -/
  | item (div n : Nat)
  /-- `:83`, about to read `div->next` again. -/
  | next2 (div : Nat) (v : α)
  /-- `:83`, about to store. -/
  | publish (n : Nat) (v : α)

/-- `:57-61`: the constructor. -/
def new (a : Nat) : Sh α := ⟨setN (fun _ => none) a (some ⟨0, none⟩), a, a, a, [], [], []⟩

/-- A step of the producer: begin `Push(v)`, or go on (`n` is the address given by the allocator, if it is asked). -/
inductive PAct (α : Type)
  | push (v : α)
  | go (n : Nat)

/-- `:105-121` `_produce`. -/
def stepP : PAct α → PPC α → Sh α → Option (PPC α × Sh α)
  | .push v, .idle, s => some (.link s.last v, { s with calls := s.calls ++ [v] })
  | .go n, .link l v, s => (s.heap l).map fun x =>
      (.cons l n v, { s with heap := setN (setN s.heap n (some ⟨0, none⟩)) l (some { x with next := n }) })
  | .go _, .cons l _ v, s => (s.heap l).bind fun x => (s.heap x.next).map fun _ =>
      (.publish l v, { s with heap := setN s.heap x.next (some ⟨0, some v⟩) })
  | .go _, .publish l v, s => (s.heap l).map fun x => (.gc, { s with last := x.next, done := s.done ++ [v] })
  | .go _, .gc, s => some (if s.first = s.div then .idle else .adv, s)
  | .go _, .adv, s => (s.heap s.first).map fun x => (.del s.first, { s with first := x.next })
  | .go _, .del t, s => (s.heap t).map fun _ => (.gc, { s with heap := setN s.heap t none })
  | _, _, _ => none

/-- A step of the consumer: `none` is returned by `Pop` when it says the queue is empty. -/
def stepC : CPC α → Sh α → Option (CPC α × Sh α)
  | .idle, s => some (.cmp s.div, s)
  | .cmp d, s => some (if d = s.last then .idle else .next d, s)
  | .next d, s => (s.heap d).map fun x => (.item d x.next, s)
  | .item d n, s => (s.heap n).bind fun x => x.item.map fun v => (.next2 d v, { s with heap := setN s.heap n (some { x with item := none }) })
  | .next2 d v, s => (s.heap d).map fun x => (.publish x.next v, s)
  | .publish n v, s => some (.idle, { s with div := n, rets := s.rets ++ [v] })

/-- The executions. -/
inductive Reach : Sh α → PPC α → CPC α → Prop
  | new (a : Nat) : 0 < a → Reach (new a) .idle .idle
  | prod {s p c a p' s'} : Reach s p c → (∀ n, a = .go n → (∃ l v, p = .link l v) → 0 < n ∧ s.heap n = none) → stepP a p s = some (p', s') →
      Reach s' p' c
  | cons {s p c c' s'} : Reach s p c → stepC c s = some (c', s') → Reach s' p c'

/-! ## Invariant -/

/-- The nodes `l` follow `x`, the last one is `t`. -/
def Path (h : Nat → Option (Node α)) : Nat → List Nat → Nat → Prop
  | x, [], t => x = t
  | x, y :: l, t => (∃ n, h x = some n ∧ n.next = y) ∧ Path h y l t

/-- The node `x` holds `v`. -/
def Has (h : Nat → Option (Node α)) (x : Nat) (v : α) : Prop := ∃ n, h x = some n ∧ n.item = some v

/-- The nodes hold the values. -/
inductive Holds (h : Nat → Option (Node α)) : List Nat → List α → Prop
  | nil : Holds h [] []
  | cons {x l v vs} : Has h x v → Holds h l vs → Holds h (x :: l) (v :: vs)

/-- What the producer knows. -/
def pOk (s : Sh α) (G D : List Nat) : PPC α → Prop
  | .idle => s.calls = s.done
  | .link l v => l = s.last ∧ s.calls = s.done ++ [v]
  | .cons l n v => l = s.last ∧ s.calls = s.done ++ [v] ∧ n ∉ s.first :: (G ++ D) ∧ (∃ x, s.heap l = some x ∧ x.next = n) ∧ s.heap n ≠ none
  | .publish l v => l = s.last ∧ s.calls = s.done ++ [v] ∧ ∃ n, n ∉ s.first :: (G ++ D) ∧ (∃ x, s.heap l = some x ∧ x.next = n) ∧ Has s.heap n v
  | .gc => s.calls = s.done
  | .adv => s.calls = s.done ∧ G ≠ []
  | .del t => s.calls = s.done ∧ t ∉ s.first :: (G ++ D) ∧ s.heap t ≠ none

/-- The value that was moved out of the first node after `div`, if the consumer is in between. -/
def moved : CPC α → Option α
  | .next2 _ v => some v
  | .publish _ v => some v
  | _ => none

/-- What the consumer knows. -/
def cOk (s : Sh α) (D : List Nat) : CPC α → Prop
  | .idle => True
  | .cmp d => d = s.div
  | .next d => d = s.div ∧ D ≠ []
  | .item d n => d = s.div ∧ ∃ D', D = n :: D'
  | .next2 d _ => d = s.div
  | .publish n _ => ∃ D', D = n :: D'

/-- The values still to come: what the consumer has moved out, and what is in the nodes. -/
def rest (h : Nat → Option (Node α)) (c : CPC α) (D : List Nat) (vs : List α) : Prop :=
  match moved c with
  | none => Holds h D vs
  | some v => ∃ n D' vs', D = n :: D' ∧ vs = v :: vs' ∧ Holds h D' vs'

structure Inv (s : Sh α) (p : PPC α) (c : CPC α) (G D : List Nat) (vs : List α) : Prop where
  garbage : Path s.heap s.first G s.div
  queue : Path s.heap s.div D s.last
  nodup : (s.first :: (G ++ D)).Nodup
  alive : ∀ x ∈ s.first :: (G ++ D), s.heap x ≠ none
  vals : s.done = s.rets ++ vs
  rest : rest s.heap c D vs
  prod : pOk s G D p
  cons : cOk s D c

end Verif.Sync.LQ
