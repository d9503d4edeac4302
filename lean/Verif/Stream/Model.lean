import Verif.Common.Mem
import Verif.Arith.IntDiv

/-!
# Model of `StreamBufDynArray` (`/repo/include/bss-util/stream.h:135-227`) for elements of one byte

Pointers are positions in the array's memory. `sputc`, `sputn`, `sgetn` and `sbumpc` are the functions of `std::streambuf` through which streams use it. `none` is
undefined behaviour.
-/

namespace Verif.Stream

/-- The array (`mem`, as long as its capacity, and `len`) and the stream buffer's pointers `eback`, `gptr`, `egptr`, `pptr`, `epptr`. -/
structure Buf where
  mem : List Nat
  len : Nat
  eback : Nat
  gptr : Nat
  egptr : Nat
  pptr : Nat
  epptr : Nat
  deriving DecidableEq

/-- The constructor, `stream.h:145-149`, for an array and `begin`. -/
def Buf.open_ (mem : List Nat) (len begin_ : Nat) : Buf := ⟨mem, len, begin_, begin_, len, len, mem.length⟩

/-- `_fixlength`, `:182-186`. -/
def Buf.fixlength (b : Buf) : Buf := { b with len := b.pptr - b.eback, egptr := b.pptr - b.eback }

/-- `_expand`, `:187-193`; `DynArray::SetCapacity`, `DynArray.h:71`, only grows. New bytes hold junk (170). -/
def Buf.expand (b : Buf) (sz : Nat) : Buf :=
  let cap := max (Arith.fbnextN b.len) (sz + b.len + 1)
  let mem := b.mem ++ List.replicate (cap - b.mem.length) 170
  { mem, len := b.len, eback := 0, gptr := b.gptr - b.eback, egptr := b.len, pptr := b.len, epptr := mem.length }

/-- `overflow`, `:194-207`, for a character. -/
def Buf.overflow (b : Buf) (c : Nat) : Option Buf :=
  let b := if b.pptr = b.epptr then b.expand 0 else b
  (wr b.mem b.pptr c).map fun m => Buf.fixlength { b with mem := m, pptr := b.pptr + 1 }

/-- `std::streambuf::sputc`: store the character if there is room, else call `overflow`. -/
def Buf.sputc (b : Buf) (c : Nat) : Option Buf :=
  if b.pptr < b.epptr then (wr b.mem b.pptr c).map fun m => { b with mem := m, pptr := b.pptr + 1 } else b.overflow c

/-- `memcpy(mem + p, src, …)`. -/
def copyAt (mem : List Nat) (p : Nat) (src : List Nat) : Option (List Nat) :=
  if p + src.length ≤ mem.length then some (mem.take p ++ src ++ mem.drop (p + src.length)) else none

/-- `xsputn`, `:208-224`, to which `sputn` goes; `fuel` bounds the recursion. -/
def Buf.xsputn : Nat → Buf → List Nat → Option (Buf × Nat)
  | 0, _, _ => none
  | fuel + 1, b, s =>
    let b := if b.pptr = b.epptr then b.expand s.length else b
    let r := min (b.epptr - b.pptr) s.length
    (copyAt b.mem b.pptr (s.take r)).bind fun m =>
      let b := Buf.fixlength { b with mem := m, pptr := b.pptr + r }
      if s.length - r ≠ 0 then xsputn fuel b (s.drop r) else some (b, r)

/-- `sputn`. -/
def Buf.sputn (b : Buf) (s : List Nat) : Option (Buf × Nat) := Buf.xsputn (s.length + 2) b s

/-- `xsgetn`, `:171-180`, to which `sgetn` goes: the bytes read. -/
def Buf.sgetn (b : Buf) (n : Nat) : Option (Buf × List Nat) :=
  if b.gptr ≤ b.egptr ∧ b.egptr ≤ b.mem.length then
    let r := min (b.egptr - b.gptr) n
    some ({ b with gptr := b.gptr + r }, (b.mem.drop b.gptr).take r)
  else none

/-- `std::streambuf::sbumpc`, with `underflow`, `:170`, at the end: the character, if any. -/
def Buf.sbumpc (b : Buf) : Option (Buf × Option Nat) :=
  if b.gptr < b.egptr then (rd b.mem b.gptr).map fun c => ({ b with gptr := b.gptr + 1 }, some c)
  else if b.gptr = b.egptr then some (b, none)
  else (rd b.mem b.gptr).map fun c => ({ b with gptr := b.gptr + 1 }, some c)

/-- `seekpos`, `:152-169`. -/
def Buf.seek (b : Buf) (pos : Nat) : Buf := { b with gptr := b.eback + pos }

end Verif.Stream
