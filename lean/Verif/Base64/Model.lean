/-!
# Model of `Base64Encode` / `Base64Decode` (`/repo/include/bss-util/algo.h:604-696`)

Bytes and characters are natural numbers (character codes); a byte is `< 256`.  The `for` loops advance by whole groups
of three bytes (four characters); they are written by recursion on the remaining input, the code after the loop being
the cases with fewer elements left.  The shifts and masks are those of the code.  `none` is an access outside `map`
(a character before `'-'` or after `'z'`), which is undefined behaviour in C++.
-/

namespace Verif.Base64

/-- The table `code`, `algo.h:636`, as character codes. -/
def code : List Nat :=
  "ABCDEFGHIJKLMNOPQRSTUVWXYZabcdefghijklmnopqrstuvwxyz0123456789-_".toList.map Char.toNat

/-- `code[i]`. -/
def ch (i : Nat) : Nat := code.getD i 0

/-- Reported length of the encoder, `algo.h:606`. -/
def encodeLen (cnt : Nat) : Nat := ((cnt / 3) <<< 2) + (cnt % 3) + (if cnt % 3 ≠ 0 then 1 else 0)

/-- Body of `Base64Encode`, `algo.h:637-663`. -/
def encode : List Nat → List Nat
  | a :: b :: c :: rest =>
    ch ((a &&& 0b11111100) >>> 2) ::
    ch (((a &&& 0b00000011) <<< 4) ||| ((b &&& 0b11110000) >>> 4)) ::
    ch (((b &&& 0b00001111) <<< 2) ||| ((c &&& 0b11000000) >>> 6)) ::
    ch (c &&& 0b00111111) :: encode rest
  | [a, b] =>
    [ch ((a &&& 0b11111100) >>> 2),
     ch (((a &&& 0b00000011) <<< 4) ||| ((b &&& 0b11110000) >>> 4)),
     ch ((b &&& 0b00001111) <<< 2)]
  | [a] => [ch ((a &&& 0b11111100) >>> 2), ch ((a &&& 0b00000011) <<< 4)]
  | [] => []

/-- The table `map`, `algo.h:677-679`. -/
def map : List Nat :=
  [62,0,0,52,53,54,55,56,57,58,59,60,61,0,0,0,0,0,0,0,
   0,1,2,3,4,5,6,7,8,9,10,11,12,13,14,15,16,17,18,19,20,21,22,23,24,25,0,0,0,0,63,0,
   26,27,28,29,30,31,32,33,34,35,36,37,38,39,40,41,42,43,44,45,46,47,48,49,50,51]

/-- `map[c - '-']`. -/
def look (c : Nat) : Option Nat := if c < 45 then none else map[c - 45]?

/-- Reported length of the decoder, `algo.h:668-673`. -/
def decodeLen (cnt : Nat) : Nat :=
  if cnt &&& 0b11 = 1 then 0
  else ((cnt >>> 2) * 3) + (cnt &&& 0b11) - (if cnt &&& 0b11 ≠ 0 then 1 else 0)

/-- Body of `Base64Decode`, `algo.h:682-694` (stores truncate to `uint8_t`).  The case of one remaining character
cannot occur after the length test; there both `if`s fail and nothing is written. -/
def decodeBody : List Nat → Option (List Nat)
  | a :: b :: c :: d :: rest => do
    let x ← look a
    let y ← look b
    let z ← look c
    let w ← look d
    let t ← decodeBody rest
    some (((x <<< 2) ||| (y >>> 4)) % 256 :: ((y <<< 4) ||| (z >>> 2)) % 256 :: ((z <<< 6) ||| w) % 256 :: t)
  | [a, b, c] => do
    let x ← look a
    let y ← look b
    let z ← look c
    some [((x <<< 2) ||| (y >>> 4)) % 256, ((y <<< 4) ||| (z >>> 2)) % 256]
  | [a, b] => do
    let x ← look a
    let y ← look b
    some [((x <<< 2) ||| (y >>> 4)) % 256]
  | [_] => some []
  | [] => some []

/-- `Base64Decode`, `algo.h:666-696`: the bytes written (the returned count is their number). -/
def decode (src : List Nat) : Option (List Nat) :=
  if src.length &&& 0b11 = 1 then some [] else decodeBody src

end Verif.Base64
