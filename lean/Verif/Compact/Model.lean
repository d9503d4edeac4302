import Verif.Common.Mem
import Verif.Arith.IntDiv

/-!
# Model of `CompactArray` (`/repo/include/bss-util/CompactArray.h`)

The union of inline storage and heap pointer, told apart by the top bit of `_length`, is a sum type: the code reads the member that the bit names. Memory that was never written
holds `junk`. The length does not reach the bit (2^63), allocation does not fail. `none` is undefined behaviour.
-/

namespace Verif.Compact

/-- The union and the flag, `CompactArray.h:159-170`: inline storage `_internal`, or the `_capacity` elements at `_array`; and the length without the flag. -/
structure CA (α : Type) where
  inlined : Bool
  mem : List α
  len : Nat
  deriving DecidableEq

/-- `allocate(n, p, old)`, `Alloc.h`: the first elements are kept. -/
def realloc {α : Type} (junk : α) (mem : List α) (n : Nat) : List α := mem.take n ++ List.replicate (n - mem.length) junk

/-- `memcpy(mem + p, src, …)`. -/
def copyAt {α : Type} (mem : List α) (p : Nat) (src : List α) : Option (List α) :=
  if p + src.length ≤ mem.length then some (mem.take p ++ src ++ mem.drop (p + src.length)) else none

/-- The default constructor, `:40`, with `n` inline elements. -/
def CA.empty {α : Type} (n : Nat) (junk : α) : CA α := ⟨true, List.replicate n junk, 0⟩

/-- `SetCapacity`, `:86-109`. -/
def CA.setCapacity {α : Type} (n : Nat) (junk : α) (s : CA α) (c : Nat) : Option (CA α) :=
  if c > n then
    let c := Arith.fbnextN c
    if s.inlined = true then (copyAt (List.replicate c junk) 0 (s.mem.take s.len)).map fun m => ⟨false, m, s.len⟩
    else some ⟨false, realloc junk s.mem c, s.len⟩
  else some s

/-- `Add`, `:56-61`: the new array and the index. -/
def CA.add {α : Type} (n : Nat) (junk : α) (s : CA α) (x : α) : Option (CA α × Nat) :=
  (s.setCapacity n junk (s.len + 1)).bind fun s => (wr s.mem s.len x).map fun m => (⟨s.inlined, m, s.len + 1⟩, s.len)

/-- `Remove`, `:62`, with `RemoveRangeSimple`, `Array.h:86-91`; beyond the end the count to move wraps around. -/
def CA.remove {α : Type} (s : CA α) (i : Nat) : Option (CA α) :=
  if i < s.len then (copyAt s.mem i ((s.mem.drop (i + 1)).take (s.len - i - 1))).map fun m => ⟨s.inlined, m, s.len - 1⟩ else none

/-- `Insert`, `:64-68`, with `InsertRangeSimple`, `Array.h:78-84`. -/
def CA.insert {α : Type} (n : Nat) (junk : α) (s : CA α) (x : α) (i : Nat) : Option (CA α) :=
  (s.setCapacity n junk (s.len + 1)).bind fun s =>
    if i ≤ s.len then
      (copyAt s.mem (i + 1) ((s.mem.drop i).take (s.len - i))).bind fun m => (copyAt m i [x]).map fun m => ⟨s.inlined, m, s.len + 1⟩
    else none

/-- `SetLength`, `:77-85` (without the debug fill). -/
def CA.setLength {α : Type} (n : Nat) (junk : α) (s : CA α) (k : Nat) : Option (CA α) := (s.setCapacity n junk k).map fun s => ⟨s.inlined, s.mem, k⟩

/-- `Clear`, `:76`. -/
def CA.clear {α : Type} (s : CA α) : CA α := { s with len := 0 }

/-- `Set`, `:69-74`. -/
def CA.set {α : Type} (n : Nat) (junk : α) (s : CA α) (l : List α) : Option (CA α) :=
  (s.setLength n junk l.length).bind fun s => (copyAt s.mem 0 l).map fun m => { s with mem := m }

/-- `operator=(const CompactArray&)`, `:123-128`. -/
def CA.assign {α : Type} (n : Nat) (junk : α) (s t : CA α) : Option (CA α) :=
  (s.setLength n junk t.len).bind fun s => (copyAt s.mem 0 (t.mem.take t.len)).map fun m => { s with mem := m }

/-- The copy constructor, `:23-27`. -/
def CA.copy {α : Type} (n : Nat) (junk : α) (t : CA α) : Option (CA α) := (CA.empty n junk).assign n junk t

/-- The move constructor, `:28-32`: the new array and what is left of the old one, whose memory now reads as inline storage. -/
def CA.move {α : Type} (n : Nat) (junk : α) (t : CA α) : CA α × CA α := (t, if t.inlined = true then { t with len := 0 } else CA.empty n junk)

/-- `begin()[i]`, `:110-119`, for `i < Length()`. -/
def CA.get {α : Type} (s : CA α) (i : Nat) : Option α := if i < s.len then s.mem[i]? else none

/-- The constructor from a list, `:41-50`: it writes to `_array` even when the storage is inline. -/
def CA.ofList {α : Type} (n : Nat) (junk : α) (l : List α) : Option (CA α) :=
  ((CA.empty n junk).setLength n junk l.length).bind fun s =>
    if s.inlined = true ∧ l ≠ [] then none else (copyAt s.mem 0 l).map fun m => { s with mem := m }

end Verif.Compact
