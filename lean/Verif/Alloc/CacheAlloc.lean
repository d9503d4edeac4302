import Verif.Alloc.BlockModel

/-!
# C36: `CacheAlloc` (`include/bss-util/CacheAlloc.h`)

Calls one after the other (no two threads at a time), without `BSS_DEBUG`.  Addresses are natural numbers, 0 is null; memory is given by the
8-byte words that start at each address, as in `Verif.Alloc.Block`.  `malloc` and the system allocator behind `GreedyAlloc` are outside and do
not fail; the address they return is an argument.  The hash from sizes to free lists is a function (the hash itself is modelled in
`Verif.Hash`), the tag that goes with a free list only matters between threads and is left out.  Sizes do not overflow.
-/

namespace Verif.Alloc.Cache

open Block (alignSize store)

/-- `CacheAlloc.h:19`, `GreedyAlloc.h:32-33`: `_maxsize`, `_align`, and the size of chunk headers `_alignsize`. -/
structure Cfg where
  max : Nat
  align : Nat
  hdr : Nat

/-- `CacheAlloc.h:19`, `GreedyAlloc.h:32-33`; a `Node` takes 16 bytes. -/
def mkCfg (max align : Nat) : Cfg := ⟨max, align, alignSize 16 align⟩

/-- Chunks (newest first), `_curpos`, free lists by size, memory. -/
structure St where
  chunks : List (Nat × Nat)
  cur : Nat
  cache : Nat → Option Nat
  mem : Nat → Nat

/-- `CacheAlloc.h:19`: the constructor, with what it gets from `GreedyAlloc.h:32-36`. -/
def new (init base : Nat) (mem : Nat → Nat) : St := ⟨[(base, init)], 0, fun _ => none, mem⟩

/-- `CacheAlloc.h:57` and `GreedyAlloc.h:55`: bytes taken by a block. -/
def rsize (c : Cfg) (sz : Nat) : Nat := alignSize (Nat.max sz 8) c.align

/-- `GreedyAlloc.h:53-89` `GreedyAlloc::Alloc` by one thread: if the rest of the root chunk is too small, a chunk is added and the second
round of the loop takes its beginning. -/
def greedy (c : Cfg) (z base : Nat) (s : St) : Option (St × Nat) :=
  match s.chunks with
  | [] => none
  | k :: ks =>
    if s.cur + z ≥ k.2 then some ({ s with chunks := (base, Arith.fbnextN (s.cur + z)) :: k :: ks, cur := 0 + z }, base + c.hdr + 0)
    else some ({ s with cur := s.cur + z }, k.1 + c.hdr + s.cur)

/-- A word inside the payload of a chunk. -/
def inChunk (c : Cfg) (s : St) (a : Nat) : Bool :=
  s.chunks.any fun k => decide (k.1 + c.hdr ≤ a ∧ a + 8 ≤ k.1 + c.hdr + k.2)

/-- `CacheAlloc.h:38-71`: the free list of a size, which is created if there is none. -/
def head (s : St) (sz : Nat) : Nat := (s.cache sz).getD 0

/-- Set the free list of a size. -/
def setHead (s : St) (sz p : Nat) : St := { s with cache := fun z => if z = sz then some p else s.cache z }

/-- `CacheAlloc.h:27-83` `Alloc`: `base` is used if system memory is needed. -/
def alloc (c : Cfg) (sz base : Nat) (s : St) : Option (St × Nat) :=
  if sz > c.max then some (s, base)
  else if head s sz = 0 then (greedy c (rsize c sz) base (setHead s sz 0))
  else if inChunk c s (head s sz) then some (setHead s sz (s.mem (head s sz)), head s sz) else none

/-- `CacheAlloc.h:84-104` `Dealloc`. -/
def dealloc (junk : Nat → Nat → Nat) (c : Cfg) (p sz : Nat) (s : St) : Option St :=
  if sz > c.max then some s
  else match s.cache sz with
    | none => none
    | some f => if inChunk c s p then some (setHead { s with mem := store junk s.mem p f } sz p) else none

/-- `CacheAlloc.h:142-154` `CachePolicy::allocate`, on bytes, without the copy: the size given to `Dealloc` for the old block. -/
def realloc (junk : Nat → Nat → Nat) (c : Cfg) (sz p old base : Nat) (s : St) : Option (St × Nat) :=
  (alloc c sz base s).bind fun r => (dealloc junk c p (if sz < old then sz else old) r.1).map fun s => (s, r.2)

/-! ## Specification -/

/-- Ranges `[a, a + n)` and `[b, b + m)` do not overlap. -/
def Apart (a n b m : Nat) : Prop := a + n ≤ b ∨ b + m ≤ a

/-- What the system guarantees of `n` bytes it hands out: not at 0, and apart from the chunks and the blocks it gave out directly. -/
def SysOk (c : Cfg) (s : St) (live : List (Nat × Nat)) (base n : Nat) : Prop :=
  0 < base ∧ (∀ k ∈ s.chunks, Apart base n k.1 (c.hdr + k.2)) ∧ ∀ x ∈ live, x.2 > c.max → Apart base n x.1 x.2

/-- The number of bytes asked from the system in a call of `Alloc`, if any. -/
def asked (c : Cfg) (sz : Nat) (s : St) : Option Nat :=
  if sz > c.max then some sz
  else if head s sz = 0 then (s.chunks.head?).bind fun k => if s.cur + rsize c sz ≥ k.2 then some (c.hdr + Arith.fbnextN (s.cur + rsize c sz)) else none
  else none

/-- The histories: `live` are the blocks in use (address and size requested), `hist` are all blocks ever returned.  Between calls the client
may change memory inside blocks in use. -/
inductive Reach (junk : Nat → Nat → Nat) (c : Cfg) : St → List (Nat × Nat) → List (Nat × Nat) → Prop
  | new (init base : Nat) (mem : Nat → Nat) : 0 < base → base % c.align = 0 → Reach junk c (new init base mem) [] []
  | alloc {s live hist sz base s' p} : Reach junk c s live hist → (∀ n, asked c sz s = some n → SysOk c s live base n) →
      (sz ≤ c.max → base % c.align = 0) →
      alloc c sz base s = some (s', p) → Reach junk c s' ((p, sz) :: live) ((p, sz) :: hist)
  | dealloc {s live hist p sz s'} : Reach junk c s live hist → (p, sz) ∈ live → dealloc junk c p sz s = some s' →
      Reach junk c s' (live.erase (p, sz)) hist
  | write {s live hist mem'} : Reach junk c s live hist → (∀ a, (∀ x ∈ live, a + 8 ≤ x.1 ∨ x.1 + x.2 ≤ a) → mem' a = s.mem a) →
      Reach junk c { s with mem := mem' } live hist

/-! ## Invariant -/

/-- The free list from `f`. -/
def Chain (m : Nat → Nat) : Nat → List Nat → Prop
  | f, [] => f = 0
  | f, p :: l => f = p ∧ p ≠ 0 ∧ Chain m (m p) l

theorem chain_congr {m m' : Nat → Nat} : ∀ {l : List Nat} {f : Nat}, Chain m f l → (∀ p ∈ l, m' p = m p) → Chain m' f l
  | [], _, h, _ => h
  | p :: l, f, h, hl => by
    obtain ⟨h1, h2, h3⟩ := h
    refine ⟨h1, h2, ?_⟩
    rw [hl p (by simp)]
    exact chain_congr h3 fun q hq => hl q (by simp [hq])

theorem store_other {junk : Nat → Nat → Nat} {m : Nat → Nat} {a v b : Nat} (h : b + 8 ≤ a ∨ a + 8 ≤ b) : store junk m a v b = m b := by
  unfold store
  rw [if_neg (by omega), if_neg (by omega)]

theorem store_same {junk : Nat → Nat → Nat} {m : Nat → Nat} {a v : Nat} : store junk m a v a = v := by
  unfold store
  rw [if_pos rfl]

/-- `B` are the blocks taken from chunks so far, `fl` the free ones by size. -/
structure Inv (c : Cfg) (s : St) (live hist B : List (Nat × Nat)) (fl : Nat → List Nat) : Prop where
  chunk : ∀ k ∈ s.chunks, 0 < k.1 ∧ k.1 % c.align = 0
  cdisj : s.chunks.Pairwise fun a b => Apart a.1 (c.hdr + a.2) b.1 (c.hdr + b.2)
  cur : s.cur % c.align = 0
  root : ∃ k ks, s.chunks = k :: ks ∧ ∀ x ∈ B, x.1 % c.align = 0 ∧ x.2 ≤ c.max ∧
    ((k.1 + c.hdr ≤ x.1 ∧ x.1 + rsize c x.2 ≤ k.1 + c.hdr + s.cur ∧ x.1 + rsize c x.2 ≤ k.1 + c.hdr + k.2) ∨
      ∃ k' ∈ ks, k'.1 + c.hdr ≤ x.1 ∧ x.1 + rsize c x.2 ≤ k'.1 + c.hdr + k'.2)
  apart : B.Pairwise fun x y => Apart x.1 (rsize c x.2) y.1 (rsize c y.2)
  chain : ∀ z, Chain s.mem (head s z) (fl z)
  fnodup : ∀ z, (fl z).Nodup
  free : ∀ z, ∀ p ∈ fl z, (p, z) ∈ B ∧ (p, z) ∉ live
  lnodup : live.Nodup
  small : ∀ x ∈ live, x.2 ≤ c.max → x ∈ B
  known : ∀ x ∈ B, (s.cache x.2).isSome = true
  hist : ∀ x ∈ hist, x.2 ≤ c.max → x ∈ B
  big : ∀ x ∈ live, x.2 > c.max → ∀ k ∈ s.chunks, Apart x.1 x.2 k.1 (c.hdr + k.2)
  bigs : live.Pairwise fun x y => x.2 > c.max → y.2 > c.max → Apart x.1 x.2 y.1 y.2

theorem rsize_ge (c : Cfg) (ha : 0 < c.align) (sz : Nat) : sz ≤ rsize c sz ∧ 8 ≤ rsize c sz := by
  have : Nat.max sz 8 ≤ rsize c sz := (Arith.C56_alignSize (sz := Nat.max sz 8) ha).2.1
  have h1 : sz ≤ Nat.max sz 8 := Nat.le_max_left _ _
  have h2 : 8 ≤ Nat.max sz 8 := Nat.le_max_right _ _
  omega

theorem rsize_mod (c : Cfg) (sz : Nat) : rsize c sz % c.align = 0 := Nat.mul_mod_left _ _

theorem add_mod0 {a b n : Nat} (ha : a % n = 0) (hb : b % n = 0) : (a + b) % n = 0 := by rw [Nat.add_mod, ha, hb]; simp

/-- A block lies in a chunk. -/
theorem Inv.mem_chunk {c : Cfg} {s : St} {live hist B : List (Nat × Nat)} {fl : Nat → List Nat} (h : Inv c s live hist B fl) {x : Nat × Nat} (hx : x ∈ B) :
    ∃ k ∈ s.chunks, k.1 + c.hdr ≤ x.1 ∧ x.1 + rsize c x.2 ≤ k.1 + c.hdr + k.2 := by
  obtain ⟨k, ks, hk, hr⟩ := h.root
  rw [hk]
  obtain ⟨-, -, h1 | ⟨k', hk', h1⟩⟩ := hr x hx
  · exact ⟨k, by simp, h1.1, h1.2.2⟩
  · exact ⟨k', by simp [hk'], h1⟩

theorem Inv.two {c : Cfg} {s : St} {live hist B : List (Nat × Nat)} {fl : Nat → List Nat} (h : Inv c s live hist B fl) {x y : Nat × Nat}
    (hx : x ∈ B) (hy : y ∈ B) (hne : x ≠ y) : Apart x.1 (rsize c x.2) y.1 (rsize c y.2) := by
  have := h.apart
  rw [List.pairwise_iff_getElem] at this
  obtain ⟨i, hi, rfl⟩ := List.getElem_of_mem hx
  obtain ⟨j, hj, rfl⟩ := List.getElem_of_mem hy
  rcases Nat.lt_trichotomy i j with e | e | e
  · exact this i j hi hj e
  · subst e; exact absurd rfl hne
  · exact (this j i hj hi e).symm

theorem Inv.bdd {c : Cfg} {s : St} {live hist B : List (Nat × Nat)} {fl : Nat → List Nat} (h : Inv c s live hist B fl) (ha : 0 < c.align)
    {z p : Nat} (hp : p ∈ fl z) : inChunk c s p = true := by
  obtain ⟨k, hk, h1, h2⟩ := h.mem_chunk (h.free z p hp).1
  have := (rsize_ge c ha z).2
  unfold Cache.inChunk
  rw [List.any_eq_true]
  exact ⟨k, hk, by simp only [decide_eq_true_eq]; simp only at h1 h2; omega⟩

end Verif.Alloc.Cache
