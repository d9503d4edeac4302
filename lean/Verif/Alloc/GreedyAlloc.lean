import Verif.Sync.RWLock
import Verif.Arith.IntDiv

/-!
# C35: `GreedyAlloc` (`include/bss-util/GreedyAlloc.h`)

Any number of threads call `Alloc` and `Clear`, in any interleaving of their accesses to shared memory: those to the lock, step by step as in
`Verif.Sync.RWLock`, and those to `_curpos`, `_root` and the chunks.  The system allocator is an oracle: a step that allocates a chunk is
given its address.  Sizes and addresses are unbounded numbers, and the system allocator does not fail (the code only asserts that).  Accesses
are sequentially consistent.
-/

namespace Verif.Alloc.Greedy
open Verif.Sync.RWLock (PC Act step1)

/-- `GreedyAlloc.h:32-33`: `_align` and `_alignsize`. -/
structure Cfg where
  align : Nat
  hdr : Nat

/-- `GreedyAlloc.h:32-33`: a `Node` takes 16 bytes. -/
def mkCfg (align : Nat) : Cfg := ⟨align, Verif.Arith.alignSize 16 align⟩

/-- `GreedyAlloc.h:55` -/
def rsize (c : Cfg) (req : Nat) : Nat := Verif.Arith.alignSize req c.align

/-- A region that was handed out: address of its chunk, offset in it, size. -/
structure Reg where
  b : Nat
  r : Nat
  z : Nat
deriving DecidableEq, Repr

/-- Address of a region. -/
def Reg.addr (c : Cfg) (g : Reg) : Nat := g.b + c.hdr + g.r

/-- Shared memory: the word of the lock, `_curpos`, the chunks (address and size, `_root` first), and, as a record only, the regions handed
out since the last `Clear`. -/
structure Sh where
  l : Nat
  curpos : Nat
  chunks : List (Nat × Nat)
  live : List Reg

/-- Where a thread is, apart from its place in calls to the lock.  All carry the size requested. -/
inductive Ph
  /-- outside of calls -/
  | out
  /-- `:64-65`, in `Alloc`, at the beginning of the loop -/
  | enter (req : Nat)
  /-- `:67-69`, after getting `r` -/
  | got (req r : Nat)
  /-- `:86-88`, after the loop -/
  | fit (req r b : Nat)
  /-- `:71-75`, in `AttemptUpgrade` or after it -/
  | full (req rend : Nat)
  /-- `:76` -/
  | upStore (req : Nat)
  /-- `:78` -/
  | down (req : Nat)
  /-- `:80` -/
  | leave (req : Nat)
  /-- `:102-106`, in `Clear` -/
  | clrLock
  /-- `:109-120` -/
  | clrFree
  /-- `:121` -/
  | clrAlloc (nsize : Nat)
  /-- `:107` and `:122` -/
  | clrUnlock
deriving DecidableEq, Repr

/-- What a thread may do: begin a call or continue the one it is in; the address is the one given by the system allocator if asked. -/
inductive Call
  | alloc (req : Nat)
  | clear
  | go (base : Nat)

/-- A step of the lock, if the agent can make it. -/
def lockStep (a : Act) (pc : PC) (ph : Ph) (sh : Sh) : Option ((PC × Ph) × Sh × Option (Nat × Nat)) :=
  (step1 a pc sh.l).map fun r => ((r.1, ph), { sh with l := r.2 }, none)

/-- One step of a thread: where it is after it, shared memory after it, and what its call returns if it ends (with the size requested).
`none` if there is no such step or it is undefined (a null `_root`). `GreedyAlloc.h:53-89` and `:100-123`. -/
def stepA (c : Cfg) : Call → PC × Ph → Sh → Option ((PC × Ph) × Sh × Option (Nat × Nat))
  | .alloc req, (.idle, .out), sh => some ((.idle, .enter req), sh, none)
  | .clear, (.idle, .out), sh => lockStep .lock .idle .clrLock sh
  -- `:64`
  | .go _, (.idle, .enter req), sh => lockStep .rlock .idle (.enter req) sh
  -- `:65`
  | .go _, (.R, .enter req), sh => some ((.R, .got req sh.curpos), { sh with curpos := sh.curpos + rsize c req }, none)
  | .go _, (pc, .enter req), sh => lockStep .cont pc (.enter req) sh
  -- `:67-71`, `:83`
  | .go _, (.R, .got req r), sh => (sh.chunks.head?).bind fun root =>
      if r + rsize c req ≥ root.2 then lockStep .attemptUpgrade .R (.full req (r + rsize c req)) sh
      else some ((.R, .fit req r root.1), { sh with live := ⟨root.1, r, rsize c req⟩ :: sh.live }, none)
  -- `:73-75` and `_allocChunk`, `:137-145`
  | .go base, (.U, .full req rend), sh => (sh.chunks.head?).map fun root =>
      if rend ≥ root.2 then ((.U, .upStore req), { sh with chunks := (base, Verif.Arith.fbnextN rend) :: sh.chunks }, none)
      else ((.U, .down req), sh, none)
  -- `:80`, after a failed attempt
  | .go _, (.R, .full req _), sh => lockStep .runlock .R (.enter req) sh
  | .go _, (pc, .full req rend), sh => lockStep .cont pc (.full req rend) sh
  -- `:76`
  | .go _, (.U, .upStore req), sh => some ((.U, .down req), { sh with curpos := 0 }, none)
  -- `:78`
  | .go _, (.U, .down req), sh => lockStep .downgrade .U (.leave req) sh
  -- `:80`
  | .go _, (.R, .leave req), sh => lockStep .runlock .R (.enter req) sh
  -- `:86-88`
  | .go _, (.R, .fit req r b), sh => (step1 .runlock .R sh.l).map fun q => ((q.1, .out), { sh with l := q.2 }, some (b + c.hdr + r, req))
  -- `:103-106`
  | .go _, (.W, .clrLock), sh =>
      if sh.chunks = [] then none
      else some ((.W, if sh.chunks.length = 1 then .clrUnlock else .clrFree), { sh with curpos := 0, live := [] }, none)
  | .go _, (pc, .clrLock), sh => lockStep .cont pc .clrLock sh
  -- `:109-120`
  | .go _, (.W, .clrFree), sh => some ((.W, .clrAlloc ((sh.chunks.map (·.2)).sum)), { sh with chunks := [] }, none)
  -- `:121`
  | .go base, (.W, .clrAlloc n), sh => some ((.W, .clrUnlock), { sh with chunks := (base, n) :: sh.chunks }, none)
  -- `:107` and `:122`
  | .go _, (.W, .clrUnlock), sh => lockStep .unlock .W .out sh
  | _, _, _ => none

/-- Shared memory and threads. -/
structure St where
  sh : Sh
  ags : List (PC × Ph)

/-- Thread `i` makes a step. -/
def step (c : Cfg) (i : Nat) (a : Call) (s : St) : Option (St × Option (Nat × Nat)) :=
  (s.ags[i]?).bind fun x => (stepA c a x s.sh).map fun y => (⟨y.2.1, s.ags.set i y.1⟩, y.2.2)

/-! ## Specification -/

/-- Ranges `[a, a + n)` and `[b, b + m)` do not overlap. -/
def Apart (a n b m : Nat) : Prop := a + n ≤ b ∨ b + m ≤ a

/-- What the system allocator guarantees of the address of a new chunk of size `n`: aligned and apart from the chunks that exist. -/
def SysOk (c : Cfg) (chunks : List (Nat × Nat)) (base n : Nat) : Prop :=
  base % c.align = 0 ∧ ∀ k ∈ chunks, Apart base (c.hdr + n) k.1 (c.hdr + k.2)

/-- The chunk that a step adds, if any, is given an address as the system allocator guarantees. -/
def StepOk (c : Cfg) (a : Call) (s s' : St) : Prop :=
  ∀ base, a = .go base → ∀ n, s'.sh.chunks = (base, n) :: s.sh.chunks → SysOk c s.sh.chunks base n

/-- States that can occur with `n` threads. -/
inductive Reach (c : Cfg) (n : Nat) : St → Prop
  | init {base size : Nat} : base % c.align = 0 → Reach c n ⟨⟨0, 0, [(base, size)], []⟩, List.replicate n (.idle, .out)⟩
  | step {s s' : St} {i : Nat} {a : Call} {r : Option (Nat × Nat)} : Reach c n s → step c i a s = some (s', r) → StepOk c a s s' → Reach c n s'

end Verif.Alloc.Greedy
