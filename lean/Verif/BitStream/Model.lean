/-!
# Model of `BitStream` (`/repo/include/bss-util/BitStream.h`)

Bytes are natural numbers below 256.  The underlying stream is the list of bytes put so far (writer) or the list of
bytes available plus a position (reader).  `int` arithmetic followed by a store into `uint8_t` is written as the
operation on naturals followed by `% 256`.  Stream error flags are not modelled: `peek` at the end of the stream gives
`EOF` (-1) as in the C++ library.  `none` is reading past the end of the caller's buffer.
-/

namespace Verif.BitStream

/-- Writer side of the object: bytes already put, `_buf`, `_woffset`. -/
structure W where
  out : List Nat
  buf : Nat
  woff : Nat
  deriving DecidableEq, Repr

/-- Constructor, `BitStream.h:19`. -/
def W.init : W := ⟨[], 0, 0⟩

/-- `Write(source, bits)`, `BitStream.h:21-47`; recursion over the bytes of `source`. -/
def write : List Nat → Nat → W → Option W
  | [], bits, st => if bits = 0 then some st else none
  | d :: ds, bits, st =>
    if 8 ≤ bits then
      let buf := (st.buf ||| (d <<< st.woff)) % 256
      write ds (bits - 8) { st with out := st.out ++ [buf], buf := (d >>> (8 - st.woff)) % 256 }
    else if bits = 0 then some st
    else
      let buf := (st.buf ||| (d <<< st.woff)) % 256
      let st1 : W :=
        if 8 ≤ st.woff + bits then { st with out := st.out ++ [buf], buf := (d >>> (8 - st.woff)) % 256 }
        else { st with buf := buf }
      let woff := (st.woff + bits) &&& 7
      some { st1 with woff := woff, buf := st1.buf &&& ((1 <<< woff) - 1) }

/-- `Flush`, `BitStream.h:81`: the bytes in the stream afterwards. -/
def flush (st : W) : List Nat := if st.woff ≠ 0 then st.out ++ [st.buf] else st.out

/-- Reader side: the bytes of the stream, the stream's position, `_roffset`. -/
structure R where
  data : List Nat
  pos : Nat
  roff : Nat
  deriving DecidableEq, Repr

def R.init (data : List Nat) : R := ⟨data, 0, 0⟩

/-- `peek()`: the next byte, or -1 at the end. -/
def peek (r : R) : Int :=
  match r.data[r.pos]? with
  | some b => b
  | none => -1

/-- `get(b)`. -/
def get (r : R) : R := if r.pos < r.data.length then { r with pos := r.pos + 1 } else r

/-- `(uint8_t)(peek() >> n)`. -/
def shr (v : Int) (n : Nat) : Nat := ((v >>> n) % 256).toNat
/-- `(uint8_t)(peek() << n)`. -/
def shl (v : Int) (n : Nat) : Nat := ((v * 2 ^ n) % 256).toNat

/-- `Read(dest, bits)`, `BitStream.h:50-78`; recursion over the bytes of `dest` (given with their old contents). -/
def read : List Nat → Nat → R → Option (List Nat × R)
  | [], bits, r => if bits = 0 then some ([], r) else none
  | d :: ds, bits, r =>
    if 8 ≤ bits then
      let d0 := shr (peek r) r.roff
      let r1 := get r
      let d1 := d0 ||| shl (peek r1) (8 - r1.roff)
      match read ds (bits - 8) r1 with
      | some (t, r2) => some (d1 :: t, r2)
      | none => none
    else if bits = 0 then some (d :: ds, r)
    else
      let d0 := d ||| shr (peek r) r.roff
      let r1 := if 8 ≤ r.roff + bits then get r else r
      let d1 := if 8 < r.roff + bits then d0 ||| shl (peek r1) (8 - r.roff) else d0
      some ((d1 &&& ((1 <<< bits) - 1)) :: ds, { r1 with roff := (r.roff + bits) &&& 7 })

end Verif.BitStream
