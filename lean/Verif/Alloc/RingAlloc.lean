import Verif.Alloc.BlockModel

/-!
# C37: `RingAllocVoid` (`include/bss-util/RingAlloc.h`)

Calls one after the other (no two threads at a time), without `BSS_DEBUG`.  Addresses are natural numbers; memory is given by the 8-byte
words that start at each address, as in `Verif.Alloc.Block`.  `calloc` is outside and does not fail; the address it returns is an argument.
Bucket headers, which the client never touches, are records; the node headers in front of the blocks are in memory.  Of a bucket's lock
the number of readers and the writer flag are kept; the allocator's own lock is free between calls, so `AttemptUpgrade` succeeds.  The free
list of buckets is a list, the permanent list of buckets is the set of addresses that have a bucket.  Sizes do not overflow.
-/

namespace Verif.Alloc.Ring

open Block (store)

/-- `RingAlloc.h:16-23`: `sz`, `reserved`, readers and writer flag of `lock`. -/
structure Bkt where
  sz : Nat
  res : Nat
  rd : Nat
  wl : Bool
  deriving DecidableEq

/-- `RingAlloc.h:240-`: the buckets by address, `_cur`, `_gc`, `_lastsize`, memory. -/
structure St where
  bk : Nat → Option Bkt
  cur : Nat
  gc : List Nat
  last : Nat
  mem : Nat → Nat

/-- Write a bucket's record; `none` is `free`. -/
def setB (s : St) (b : Nat) (k : Option Bkt) : St := { s with bk := fun x => if x = b then k else s.bk x }

/-- `RingAlloc.h:164-181`: take buckets from the free list; those that are too small are freed. -/
def popGc (num : Nat) : List Nat → St → Option (St × Option Nat)
  | [], s => some ({ s with gc := [] }, none)
  | b :: g, s => (s.bk b).bind fun k =>
    if k.sz < num then popGc num g (setB s b none) else some ({ s with gc := g }, some b)

/-- `RingAlloc.h:183-203`: the bucket found is reset and unlocked, or a new one is made. -/
def finish (base : Nat) (r : St × Option Nat) : Option (St × Nat) :=
  match r.2 with
  | none => some (setB { r.1 with last := Arith.fbnextN r.1.last } base (some ⟨Arith.fbnextN r.1.last, 0, 0, false⟩), base)
  | some b => (r.1.bk b).map fun k => (setB r.1 b (some { k with res := 0, wl := false }), b)

/-- `RingAlloc.h:154-204` `_genBucket`. -/
def genBucket (num base : Nat) (s : St) : Option (St × Nat) :=
  (popGc num s.gc { s with last := if s.last < num then num else s.last }).bind (finish base)

/-- `RingAlloc.h:206-238` `_checkRecycle`, `_recycle`. -/
def checkRecycle (b : Nat) (s : St) : Option St :=
  (s.bk b).map fun k =>
    if k.rd = 0 ∧ k.wl = false then
      if b = s.cur then setB s b (some { k with res := 0 })
      else { setB s b (some { k with wl := true }) with gc := b :: s.gc }
    else s

/-- Store `_genBucket`'s result in `_cur`, `RingAlloc.h:75`. -/
def replace (n base : Nat) (s : St) : Option St := (genBucket n base s).map fun r => { r.1 with cur := r.2 }

/-- `RingAlloc.h:52-85`: one round of the loop of `Alloc`; gives the offset, or nothing if there is another round.  A locked current bucket
would make the loop run forever. -/
def round (n base : Nat) (s : St) : Option (St × Option Nat) :=
  (s.bk s.cur).bind fun k =>
    if k.wl then none
    else if k.res + n > k.sz then
      (if k.res = 0 then checkRecycle s.cur s else some s).bind fun s => (replace n base s).map fun s => (s, none)
    else some (setB s s.cur (some { k with res := k.res + n, rd := k.rd + 1 }), some k.res)

/-- `RingAlloc.h:87-95`: write the node header. -/
def place (junk : Nat → Nat → Nat) (hdr n r : Nat) (s : St) : St × Nat :=
  ({ s with mem := store junk (store junk s.mem (s.cur + hdr + r) n) (s.cur + hdr + r + 8) s.cur }, s.cur + hdr + r + 16)

/-- The loop, up to two rounds; it is proved below that there is no third. -/
def rounds (n base : Nat) (s : St) : Option (St × Nat) :=
  (round n base s).bind fun r => match r.2 with
    | some o => some (r.1, o)
    | none => (round n base r.1).bind fun r => r.2.map fun o => (r.1, o)

/-- `RingAlloc.h:46-96` `Alloc`. -/
def alloc (junk : Nat → Nat → Nat) (hdr num base : Nat) (s : St) : Option (St × Nat) :=
  (rounds (num + 16) base s).map fun r => place junk hdr (num + 16) r.2 r.1

/-- `RingAlloc.h:100-111` `Dealloc`. -/
def dealloc (p : Nat) (s : St) : Option St :=
  (s.bk (s.mem (p - 8))).bind fun k =>
    if k.rd = 0 then none else checkRecycle (s.mem (p - 8)) (setB s (s.mem (p - 8)) (some { k with rd := k.rd - 1 }))

/-- `RingAlloc.h:135-152` `_clear`. -/
def clear0 (s : St) : St := { s with bk := fun _ => none, gc := [], cur := 0 }

/-- `RingAlloc.h:112-118` `Clear`. -/
def clear (base : Nat) (s : St) : Option St := replace s.last base (clear0 s)

/-- `RingAlloc.h:38-43`: the constructor. -/
def new (sz base : Nat) (mem : Nat → Nat) : Option St := replace sz base ⟨fun _ => none, 0, [], sz, mem⟩

/-! ## Specification -/

/-- Ranges `[a, a + n)` and `[b, b + m)` do not overlap. -/
def Apart (a n b m : Nat) : Prop := a + n ≤ b ∨ b + m ≤ a

/-- A block in use: address, size requested, and the bucket it came from (the current one after the call). -/
structure Blk where
  p : Nat
  num : Nat
  b : Nat
  deriving DecidableEq

/-- The state in which `Alloc` asks the system for a bucket, if it does: those that were too small have been freed. -/
def callocIn (n : Nat) (s : St) : Option St :=
  (popGc n s.gc { s with last := if s.last < n then n else s.last }).bind fun r => if r.2 = none then some r.1 else none

/-- What `calloc` guarantees of a new bucket: not at 0, and apart from all buckets there are. -/
def Fresh (hdr : Nat) (s : St) (base : Nat) : Prop :=
  0 < base ∧ ∀ b k, s.bk b = some k → Apart base (hdr + Arith.fbnextN s.last) b (hdr + k.sz)

/-- The histories: `live` are the blocks in use.  Between calls the client may change memory inside blocks in use. -/
inductive Reach (junk : Nat → Nat → Nat) (hdr : Nat) : St → List Blk → Prop
  | new {sz base mem s} : 0 < base → new sz base mem = some s → Reach junk hdr s []
  | alloc {s live num base s' p} : Reach junk hdr s live → (∀ s1, callocIn (num + 16) s = some s1 → Fresh hdr s1 base) →
      alloc junk hdr num base s = some (s', p) → Reach junk hdr s' (⟨p, num, s'.cur⟩ :: live)
  | dealloc {s live x s'} : Reach junk hdr s live → x ∈ live → dealloc x.p s = some s' → Reach junk hdr s' (live.erase x)
  | clear {s live base s'} : Reach junk hdr s live → 0 < base → clear base s = some s' → Reach junk hdr s' []
  | write {s live mem'} : Reach junk hdr s live → (∀ a, (∀ x ∈ live, a + 8 ≤ x.p ∨ x.p + x.num ≤ a) → mem' a = s.mem a) →
      Reach junk hdr { s with mem := mem' } live

end Verif.Alloc.Ring
