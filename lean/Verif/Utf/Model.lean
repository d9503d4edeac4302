import Verif.Common.Mem

/-!
# C47-C50: UTF conversion (`bss-util/ConvertUTF.c`)

Code units are natural numbers (below `2^32`, `2^16`, `2^8`; where C wraps or truncates, so does the model).  The source is the list of units that may be
read from the pointer on; reading beyond it is undefined behaviour (`none`).  The target is a buffer of `buflen` units, or none for the length query; writing
outside of it is undefined behaviour.  `srclen < 0` is `PTRDIFF_MAX` in the code, which is more than any memory; here it is no limit.  `wchar_t` has
16 bits, as on Windows (with 32-bit `wchar_t` the casts to `UTF16*` make the 16-bit functions useless).
-/

namespace Verif.Utf

/-- The counting loops (`:121-125`, `:258-271`, `:403-407`): position where it stops and `buflen`; `w` is what a unit adds.  The unit is read before the limit is
compared. -/
def scan (w : Nat → Nat) : List Nat → Option Nat → Option (Nat × Nat)
  | [], _ => none
  | c :: m, lim => if c = 0 ∨ lim = some 0 then some (0, 1) else (scan w m (lim.map (· - 1))).map fun r => (r.1 + 1, r.2 + w c)

/-- `srclen < 0`. -/
def limit (srclen : Int) : Option Nat := if srclen < 0 then none else some srclen.toNat

/-- `:127`, `:273-274`, `:409`: how many units are converted. -/
def srcEnd (pos : Nat) : Option Nat → Nat
  | none => pos + 1
  | some l => if pos < l then pos + 1 else l

/-! ## UTF-32 to UTF-16 -/

/-- `:123`. -/
def w16 (c : Nat) : Nat := 1 + if c > 0xFFFF then 1 else 0

/-- `:129-181`. -/
def loop16 : List Nat → List Nat → Nat → Option (Nat × List Nat)
  | [], buf, t => some (t, buf)
  | ch :: src, buf, t =>
    if t ≥ buf.length then some (t, buf)
    else if ch ≤ 0xFFFF then
      if ch ≥ 0xD800 ∧ ch ≤ 0xDFFF then (wr buf t 0xFFFD).bind fun buf => loop16 src buf (t + 1)
      else (wr buf t (ch % 65536)).bind fun buf => loop16 src buf (t + 1)
    else if ch > 0x10FFFF then (wr buf t 0xFFFD).bind fun buf => loop16 src buf (t + 1)
    else if t + 1 ≥ buf.length then some (t, buf)
    else (wr buf t ((((ch - 0x10000) >>> 10) + 0xD800) % 65536)).bind fun buf =>
      (wr buf (t + 1) ((((ch - 0x10000) &&& 0x3FF) + 0xDC00) % 65536)).bind fun buf => loop16 src buf (t + 2)

/-- `UTF32toUTF16`, `:113-183`: number of units and the buffer. -/
def utf32to16 (src : List Nat) (srclen : Int) (out : Option (List Nat)) : Option (Nat × List Nat) :=
  if srclen = 0 then some (0, out.getD [])
  else (scan w16 src (limit srclen)).bind fun r =>
    match out with
    | none => some (r.2, [])
    | some buf => loop16 (src.take (srcEnd r.1 (limit srclen))) buf 0

/-! ## UTF-16 to UTF-32 -/

/-- `wcslen`. -/
def wcslen : List Nat → Option Nat
  | [] => none
  | c :: m => if c = 0 then some 0 else (wcslen m).map (· + 1)

/-- The end of the loop body (`:237-242`): whether the loop goes on. -/
def put (buf : List Nat) (t ch : Nat) (k : List Nat → Nat → Option (Nat × List Nat)) : Option (Nat × List Nat) :=
  if t ≥ buf.length then some (t, buf) else (wr buf t ch).bind fun buf => k buf (t + 1)

/-- `:196-243`. -/
def loop16to32 : List Nat → List Nat → Nat → Option (Nat × List Nat)
  | [], buf, t => some (t, buf)
  | [ch], buf, t => if ch ≥ 0xD800 ∧ ch ≤ 0xDBFF then some (t, buf) else put buf t ch fun buf t => some (t, buf)
  | ch :: ch2 :: src, buf, t =>
    if ch ≥ 0xD800 ∧ ch ≤ 0xDBFF then
      if ch2 ≥ 0xDC00 ∧ ch2 ≤ 0xDFFF then put buf t (((ch - 0xD800) <<< 10) + (ch2 - 0xDC00) + 0x10000) (loop16to32 src)
      else put buf t ch (loop16to32 (ch2 :: src))
    else put buf t ch (loop16to32 (ch2 :: src))

/-- `UTF16toUTF32`, `:185-245`; all `n` units have to be readable (the code might stop earlier). -/
def utf16to32 (src : List Nat) (srclen : Int) (out : Option (List Nat)) : Option (Nat × List Nat) :=
  if srclen = 0 then some (0, out.getD [])
  else (if srclen < 0 then (wcslen src).map (· + 1) else some srclen.toNat).bind fun n =>
    match out with
    | none => some (n, [])
    | some buf => if n ≤ src.length then loop16to32 (src.take n) buf 0 else none

/-! ## UTF-32 to UTF-8 -/

/-- `:260-269`, `:296-316`. -/
def w8 (c : Nat) : Nat := if c < 0x80 then 1 else if c < 0x800 then 2 else if c < 0x10000 then 3 else if c ≤ 0x10FFFF then 4 else 3

/-- `firstByteMark`, `:101`. -/
def firstByteMark : List Nat := [0x00, 0x00, 0xC0, 0xE0, 0xF0, 0xF8, 0xFC]

/-- Cases 4, 3 and 2 of `:327-329`: `k` of them, with `target` at `t`. -/
def tail8 : Nat → Nat → List Nat → Nat → Option (Nat × List Nat × Nat)
  | 0, ch, buf, t => some (ch, buf, t)
  | k + 1, ch, buf, t => if t = 0 then none else (wr buf (t - 1) (((ch ||| 0x80) &&& 0xBF) % 256)).bind fun buf => tail8 k (ch >>> 6) buf (t - 1)

/-- `:325-331` with `target` at `t`. -/
def put8 (n ch : Nat) (buf : List Nat) (t : Nat) : Option (List Nat × Nat) :=
  (tail8 (n - 1) ch buf t).bind fun r => if r.2.2 = 0 then none else
    (firstByteMark[n]?).bind fun m => (wr r.2.1 (r.2.2 - 1) ((r.1 ||| m) % 256)).map fun buf => (buf, r.2.2 - 1)

/-- `:276-333`. -/
def loop8 : List Nat → List Nat → Nat → Option (Nat × List Nat)
  | [], buf, t => some (t, buf)
  | ch :: src, buf, t =>
    if t + w8 ch > buf.length then some (t, buf)
    else (put8 (w8 ch) (if ch ≤ 0x10FFFF then ch else 0xFFFD) buf (t + w8 ch)).bind fun r => loop8 src r.1 (r.2 + w8 ch)

/-- `UTF32toUTF8`, `:249-335`. -/
def utf32to8 (src : List Nat) (srclen : Int) (out : Option (List Nat)) : Option (Nat × List Nat) :=
  if srclen = 0 then some (0, out.getD [])
  else (scan w8 src (limit srclen)).bind fun r =>
    match out with
    | none => some (r.2, [])
    | some buf => loop8 (src.take (srcEnd r.1 (limit srclen))) buf 0

/-! ## UTF-8 to UTF-32 -/

/-- `trailingBytesForUTF8`, `:75-84`: the runs of the table. -/
def trailing (b : Nat) : Nat :=
  if b < 192 then 0 else if b < 224 then 1 else if b < 240 then 2 else if b < 248 then 3 else if b < 252 then 4 else 5

/-- `offsetsFromUTF8`, `:91-92`. -/
def offsets : List Nat := [0x00000000, 0x00003080, 0x000E2080, 0x03C82080, 0xFA082080, 0x82082080]

/-- The inner switch (`:362-370`). -/
def second (b a : Nat) : Bool :=
  if b = 0xE0 then !(a < 0xA0) else if b = 0xED then !(a > 0x9F) else if b = 0xF0 then !(a < 0x90) else if b = 0xF4 then !(a > 0x8F) else !(a < 0x80)

/-- `:372-375`. -/
def first (b : Nat) : Bool := !(b ≥ 0x80 && b < 0xC2) && !(b > 0xF4)

def cont (a : Nat) : Bool := !(a < 0x80 || a > 0xBF)

/-- `isLegalUTF8`, `:350-376`. -/
def isLegal (src : List Nat) (length : Nat) : Option Bool :=
  match length with
  | 1 => (src[0]?).map first
  | 2 => (src[1]?).bind fun a => if !cont a then some false else (src[0]?).map fun b => second b a && first b
  | 3 => (src[2]?).bind fun x => if !cont x then some false else
      (src[1]?).bind fun a => if !cont a then some false else (src[0]?).map fun b => second b a && first b
  | 4 => (src[3]?).bind fun x => if !cont x then some false else (src[2]?).bind fun x => if !cont x then some false else
      (src[1]?).bind fun a => if !cont a then some false else (src[0]?).map fun b => second b a && first b
  | _ => some false

/-- `isLegalUTF8Sequence`, `:384-392`. -/
def isLegalSeq (src : List Nat) : Option Bool :=
  (src[0]?).bind fun b => if trailing b + 1 > src.length then some false else isLegal src (trailing b + 1)

/-- `:427-435`: `k` trailing bytes. -/
def gather : Nat → Nat → List Nat → Option Nat
  | 0, ch, b :: _ => some ((ch + b) % 2 ^ 32)
  | k + 1, ch, b :: src => gather k (((ch + b) <<< 6) % 2 ^ 32) src
  | _, _, [] => none

/-- `:405`. -/
def wlead (b : Nat) : Nat := if b &&& 0xC0 ≠ 0x80 then 1 else 0

/-- `:411-471`; every round takes at least one byte, so `n` rounds are enough for `n` bytes. -/
def loop8to32 : Nat → List Nat → List Nat → Nat → Option (Nat × List Nat)
  | 0, _, buf, t => some (t, buf)
  | _ + 1, [], buf, t => some (t, buf)
  | n + 1, b :: src, buf, t =>
    let k := trailing b
    if k ≥ (b :: src).length then some (t, buf)
    else (isLegal (b :: src) (k + 1)).bind fun ok =>
      if !ok then some (t, buf)
      else (gather k 0 (b :: src)).bind fun g => (offsets[k]?).bind fun o =>
        let ch := (g + (2 ^ 32 - o)) % 2 ^ 32
        if t ≥ buf.length then some (t, buf)
        else if ch ≤ 0x10FFFF then
          if ch ≥ 0xD800 ∧ ch ≤ 0xDFFF then (wr buf t 0xFFFD).bind fun buf => loop8to32 n ((b :: src).drop (k + 1)) buf (t + 1)
          else (wr buf t ch).bind fun buf => loop8to32 n ((b :: src).drop (k + 1)) buf (t + 1)
        else (wr buf t 0xFFFD).bind fun buf => loop8to32 n ((b :: src).drop (k + 1)) buf (t + 1)

/-- `UTF8toUTF32`, `:395-473`. -/
def utf8to32 (src : List Nat) (srclen : Int) (out : Option (List Nat)) : Option (Nat × List Nat) :=
  if srclen = 0 then some (0, out.getD [])
  else (scan wlead src (limit srclen)).bind fun r =>
    match out with
    | none => some (r.2, [])
    | some buf => loop8to32 (srcEnd r.1 (limit srclen)) (src.take (srcEnd r.1 (limit srclen))) buf 0

end Verif.Utf
