import Verif.Arith.IntDiv

/-!
# `BlockAlloc` (`include/bss-util/BlockAlloc.h`)

Addresses are natural numbers, 0 is the null pointer.  Memory is given by the 8-byte words that start at each address; a store
changes the words that overlap it to something arbitrary (`junk`).  The system allocator is outside: the address it returns is an
argument (`none` for failure).  The header of a chunk (`size`, `next`) is kept apart as the list of chunks, newest first; blocks are
proved to lie behind the header.  Sizes do not overflow.
-/

namespace Verif.Alloc.Block

/-- Sizes that are fixed for one allocator: block size `_sz`, header size `_alignsize`, alignment. -/
structure Cfg where
  sz : Nat
  hdr : Nat
  align : Nat

/-- `AlignSize` (`Alloc.h:31`). -/
def alignSize (sz align : Nat) : Nat := (sz / align + if sz % align ≠ 0 then 1 else 0) * align

/-- `BlockAlloc.h:26-27`: the sizes; a `Node` takes 16 bytes. -/
def mkCfg (sz align : Nat) : Cfg := ⟨alignSize sz align, alignSize 16 align, align⟩

/-- A chunk: address of its header and size of its payload. -/
abbrev Chunk := Nat × Nat

/-- The allocator. -/
structure St where
  chunks : List Chunk
  free : Nat
  mem : Nat → Nat

/-- An 8-byte store. -/
def store (junk : Nat → Nat → Nat) (m : Nat → Nat) (a v : Nat) : Nat → Nat := fun b =>
  if b = a then v else if b < a + 8 ∧ a < b + 8 then junk b v else m b

/-- An access to a word is allowed inside the payload of a chunk. -/
def inChunk (c : Cfg) (s : St) (a : Nat) : Bool :=
  s.chunks.any fun k => decide (k.1 + c.hdr ≤ a ∧ a + 8 ≤ k.1 + c.hdr + k.2)

/-- `BlockAlloc.h:134-143` `_initChunk`. -/
def initChunk (junk : Nat → Nat → Nat) (sz memend memref free : Nat) (m : Nat → Nat) : Nat × (Nat → Nat) :=
  if h : memref < memend ∧ 0 < sz then initChunk junk sz memend (memref + sz) memref (store junk m memref free) else (free, m)
termination_by memend - memref
decreasing_by omega

/-- `BlockAlloc.h:120-132` `_allocChunk`; `base` is what the system allocator returns. -/
def allocChunk (junk : Nat → Nat → Nat) (c : Cfg) (nsize : Nat) (base : Option Nat) (s : St) : St :=
  match base with
  | none => s
  | some b =>
    let r := initChunk junk c.sz (b + c.hdr + nsize) (b + c.hdr) s.free s.mem
    ⟨(b, nsize) :: s.chunks, r.1, r.2⟩

/-- `BlockAlloc.h:26-31`: the constructor. -/
def new (junk : Nat → Nat → Nat) (c : Cfg) (init : Nat) (base : Option Nat) (mem : Nat → Nat) : St :=
  allocChunk junk c (init * c.sz) base ⟨[], 0, mem⟩

/-- `BlockAlloc.h:63-65`: take the first free block. -/
def pop (c : Cfg) (s : St) : Option (St × Nat) :=
  if inChunk c s s.free then some (⟨s.chunks, s.mem s.free, s.mem⟩, s.free) else none

/-- `BlockAlloc.h:55`: the size of the next chunk; `_root` must not be null. -/
def nextSize (c : Cfg) (s : St) : Option Nat := s.chunks.head?.map fun k => Arith.fbnextN (k.2 / c.sz) * c.sz

/-- `BlockAlloc.h:47-66` `Alloc`. -/
def alloc (junk : Nat → Nat → Nat) (c : Cfg) (base : Option Nat) (s : St) : Option (St × Nat) :=
  if s.free = 0 then (nextSize c s).bind fun n =>
    if (allocChunk junk c n base s).free = 0 then some (allocChunk junk c n base s, 0) else pop c (allocChunk junk c n base s)
  else pop c s

/-- `BlockAlloc.h:67-78` `Dealloc`. -/
def dealloc (junk : Nat → Nat → Nat) (c : Cfg) (p : Nat) (s : St) : Option St :=
  if inChunk c s p then some ⟨s.chunks, p, store junk s.mem p s.free⟩ else none

/-- `BlockAlloc.h:79-93` `Clear`. -/
def clear (junk : Nat → Nat → Nat) (c : Cfg) (base : Option Nat) (s : St) : St :=
  allocChunk junk c ((s.chunks.map (·.2)).sum) base ⟨[], 0, s.mem⟩

end Verif.Alloc.Block
