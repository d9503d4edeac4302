import Verif.Arith.IntDiv

/-!
# C41: `LocklessBlockPolicy` (`include/bss-util/BlockAllocMT.h`)

Any number of threads; one step is one access to shared memory, in any interleaving (sequentially consistent).  Memory is kept per block: the
first word of each block (blocks are at least a word long and do not overlap, which is part of what is proved).  The client may change the
blocks it holds at any time.  Tags do not wrap.  `malloc` is outside and does not fail; the address it returns is an argument.  `asmcasr`
(`lockless.h`) is an atomic compare and swap of pointer and tag that also gives the old value; with equal new and expected values it is an atomic
read.  The fields of `_root` are only touched by the thread that holds `_flag` (proved), so a new chunk and its links are made in one step.
-/

namespace Verif.Alloc.Lockless

/-- Arguments of a call of `_setFreeList` (`:144`): `p`, `target`; the blocks from `p` to `target` (not in the code), and whether it is called
for a new chunk. -/
structure Push where
  top : Nat
  tgt : Nat
  S : List Nat
  carve : Bool

/-- Where a thread is. -/
inductive PC
  /-- Outside. -/
  | idle
  /-- `:54-56`, top of the loop with `ret`. -/
  | aHave (p t : Nat)
  /-- `:71`, about to swap: `ret` and `nval.p`. -/
  | aCas (p t n : Nat)
  /-- `:60`, has `_flag`. -/
  | aFlag
  /-- `:61`, about to make a chunk. -/
  | aCarve
  /-- `:62`, about to clear `_flag`. -/
  | aUnflag
  /-- `:64`, about to read the free list again. -/
  | aReload
  /-- `:148`, about to read the free list. -/
  | pLoad (u : Push)
  /-- `:152-153`, about to write the link; `prev`. -/
  | pWrite (u : Push) (pp pt : Nat)
  /-- `:155`, about to swap. -/
  | pCas (u : Push) (pp pt : Nat)

/-- Shared: `_freelist`, `_flag`, the number of blocks of `_root`, the first words of blocks; and, not in the code, the blocks held by clients
and all blocks made so far. -/
structure Sh where
  fl : Nat × Nat
  flag : Bool
  cnt : Nat
  mem : Nat → Nat
  held : List Nat
  B : List Nat

/-- Write a word. -/
def upd (m : Nat → Nat) (a v : Nat) : Nat → Nat := fun x => if x = a then v else m x

/-- `:135-139`: the loop of `_initChunk`, over the blocks of the chunk; `hold`. -/
def initLoop : List Nat → Nat → (Nat → Nat) → (Nat → Nat) × Nat
  | [], hold, m => (m, hold)
  | a :: l, hold, m => initLoop l a (upd m a hold)

/-- `:133-135`: the blocks of a chunk at `base` with `n` blocks of `sz` bytes; the header takes 16 bytes. -/
def blocks (sz base n : Nat) : List Nat := (List.range n).map fun i => base + 16 + i * sz

/-- What the thread does next. -/
inductive Act
  | alloc
  | free (p : Nat)
  | go (base : Nat)

/-- One step of one thread. -/
def step1 (sz : Nat) : Act → PC → Sh → Option (PC × Sh)
  -- `:51-52`
  | .alloc, .idle, s => some (.aHave s.fl.1 s.fl.2, s)
  -- `:78-87`, the client passes a block it holds
  | .free p, .idle, s => if p ∈ s.held then some (.pLoad ⟨p, p, [p], false⟩, { s with held := s.held.erase p }) else none
  -- `:56-58` and `:68-69`
  | .go _, .aHave p t, s =>
    if p = 0 then (if s.flag then some (.aReload, s) else some (.aFlag, { s with flag := true }))
    else some (.aCas p t (s.mem p), s)
  -- `:71`
  | .go _, .aCas p t n, s =>
    if s.fl = (p, t) then some (.idle, { s with fl := (n, t + 1), held := p :: s.held }) else some (.aHave s.fl.1 s.fl.2, s)
  -- `:60`
  | .go _, .aFlag, s => some (if s.fl.1 = 0 then .aCarve else .aUnflag, s)
  -- `:61`, `:120-142`
  | .go base, .aCarve, s =>
    let l := blocks sz base (Arith.fbnextN s.cnt)
    let r := initLoop l 0 s.mem
    some (.pLoad ⟨r.2, base + 16, l.reverse, true⟩, { s with mem := r.1, cnt := Arith.fbnextN s.cnt, B := l ++ s.B })
  -- `:62`
  | .go _, .aUnflag, s => some (.aReload, { s with flag := false })
  -- `:64`
  | .go _, .aReload, s => some (.aHave s.fl.1 s.fl.2, s)
  -- `:148`
  | .go _, .pLoad u, s => some (.pWrite u s.fl.1 s.fl.2, s)
  -- `:152-153`
  | .go _, .pWrite u pp pt, s => some (.pCas u pp pt, { s with mem := upd s.mem u.tgt pp })
  -- `:155`
  | .go _, .pCas u pp pt, s =>
    if s.fl = (pp, pt) then some (if u.carve then .aUnflag else .idle, { s with fl := (u.top, pt + 1) }) else some (.pWrite u s.fl.1 s.fl.2, s)
  | _, _, _ => none

/-- `:23-32`: the constructor, for `init` blocks. -/
def new (sz init base : Nat) (mem : Nat → Nat) : Sh :=
  let l := blocks sz base init
  let r := initLoop l 0 mem
  ⟨(r.2, 0 + 1), false, init, upd r.1 (base + 16) 0, [], l⟩

/-! ## Specification -/

/-- What `malloc` guarantees: not 0, and apart from all blocks made so far. -/
def SysOk (sz base n : Nat) (B : List Nat) : Prop := 0 < base ∧ ∀ b ∈ B, base + 16 + n * sz ≤ b ∨ b + sz ≤ base

/-- The executions of any number of threads. -/
inductive Reach (sz : Nat) : Sh → List PC → Prop
  | new {init base mem n} : 0 < init → 0 < base → Reach sz (new sz init base mem) (List.replicate n .idle)
  | step {s ags i a pc pc' s'} : Reach sz s ags → ags[i]? = some pc →
      (∀ base, a = .go base → pc = .aCarve → SysOk sz base (Arith.fbnextN s.cnt) s.B) →
      step1 sz a pc s = some (pc', s') → Reach sz s' (ags.set i pc')
  | write {s ags p v} : Reach sz s ags → p ∈ s.held → Reach sz { s with mem := upd s.mem p v } ags

/-- The free list from `f`. -/
def Chain (m : Nat → Nat) : Nat → List Nat → Prop
  | f, [] => f = 0
  | f, p :: l => f = p ∧ p ≠ 0 ∧ Chain m (m p) l

/-- The thread is between taking and clearing `_flag`. -/
def flagged : PC → Bool
  | .aFlag | .aCarve | .aUnflag => true
  | .pLoad u | .pWrite u _ _ | .pCas u _ _ => u.carve
  | _ => false

end Verif.Alloc.Lockless
