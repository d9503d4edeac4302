/-! # Specification of UTF-8 and UTF-16 (the Unicode standard) -/

namespace Verif.Utf

/-- Table 3-7 of the Unicode standard, row by row. -/
def WellFormed : List Nat → Prop
  | [a] => a ≤ 0x7F
  | [a, b] => (0xC2 ≤ a ∧ a ≤ 0xDF) ∧ (0x80 ≤ b ∧ b ≤ 0xBF)
  | [a, b, c] =>
    (a = 0xE0 ∧ (0xA0 ≤ b ∧ b ≤ 0xBF) ∨ (0xE1 ≤ a ∧ a ≤ 0xEC) ∧ (0x80 ≤ b ∧ b ≤ 0xBF) ∨ a = 0xED ∧ (0x80 ≤ b ∧ b ≤ 0x9F) ∨
      (0xEE ≤ a ∧ a ≤ 0xEF) ∧ (0x80 ≤ b ∧ b ≤ 0xBF)) ∧ (0x80 ≤ c ∧ c ≤ 0xBF)
  | [a, b, c, d] =>
    (a = 0xF0 ∧ (0x90 ≤ b ∧ b ≤ 0xBF) ∨ (0xF1 ≤ a ∧ a ≤ 0xF3) ∧ (0x80 ≤ b ∧ b ≤ 0xBF) ∨ a = 0xF4 ∧ (0x80 ≤ b ∧ b ≤ 0x8F)) ∧
      (0x80 ≤ c ∧ c ≤ 0xBF) ∧ (0x80 ≤ d ∧ d ≤ 0xBF)
  | _ => False

/-- The UTF-8 bytes of a text, from Lean's own encoder. -/
def utf8 (text : List Char) : List Nat := (text.flatMap String.utf8EncodeChar).map (·.toNat)

/-- The UTF-16 units of a character: a surrogate pair exactly above U+FFFF. -/
def utf16Char (c : Char) : List Nat :=
  if c.toNat < 0x10000 then [c.toNat] else [0xD800 + (c.toNat - 0x10000) / 0x400, 0xDC00 + (c.toNat - 0x10000) % 0x400]

def utf16 (text : List Char) : List Nat := text.flatMap utf16Char

def utf32 (text : List Char) : List Nat := text.map (·.toNat)

/-- The length determined by the first byte (columns of Table 3-6; nothing is said about bytes that cannot come first). -/
def LengthFor (b n : Nat) : Prop :=
  (b ≤ 0x7F → n = 1) ∧ (0xC2 ≤ b ∧ b ≤ 0xDF → n = 2) ∧ (0xE0 ≤ b ∧ b ≤ 0xEF → n = 3) ∧ (0xF0 ≤ b ∧ b ≤ 0xF4 → n = 4)

/-- A converter respects its buffer: whenever the length query gives `q`,
* with any buffer at most `buf.length` units are written, and nothing else is touched;
* there is one complete result, of length at most `q`, and any buffer with room for it receives it. -/
def Bounded (conv : List Nat → Int → Option (List Nat) → Option (Nat × List Nat)) : Prop :=
  ∀ (src : List Nat) (srclen : Int) (q : Nat) (b : List Nat), srclen ≤ src.length → conv src srclen none = some (q, b) →
    (∀ buf : List Nat, ∃ n buf', conv src srclen (some buf) = some (n, buf') ∧ n ≤ buf.length ∧ buf'.length = buf.length ∧ buf'.drop n = buf.drop n) ∧
    ∃ out : List Nat, out.length ≤ q ∧ ∀ buf : List Nat, q ≤ buf.length → conv src srclen (some buf) = some (out.length, out ++ buf.drop out.length)

end Verif.Utf
