import Verif.Utf.Props

/-!
# Strings made from strings of another encoding (C180), `/repo/include/bss-util/Str.h`

The conversions of `bss-util/ConvertUTF.c` are those of `Verif/Utf/Model.lean`. Those between `char` and `wchar_t` (`UTF8toUTF16`, `UTF16toUTF8`) are functions of the system and not modelled. After `resize(n)` a string
that was empty has `n` zeros, and its memory goes on with anything up to the capacity.
-/

namespace Verif.StrConv

open Verif.Utf

/-! ## Code -/

/-- A constructed string, or `std::length_error`. -/
inductive Result where
  | ok (s : List Nat)
  | lengthError
deriving DecidableEq, Repr

/-- A function of `ConvertUTF.c`. -/
abbrev Conv := List Nat → Int → Option (List Nat) → Option (Nat × List Nat)

/-- `resize` of a string with `size` characters at the beginning of its memory: `Str.h:294` and `307`. `n` is the `size_t` plus one. -/
def resizePred (mem : List Nat) (size n : Nat) : Result :=
  if n = 0 then .lengthError
  else if n - 1 ≤ size then .ok (mem.take (n - 1))
  else .ok (mem.take size ++ List.replicate (n - 1 - size) 0)

/-- `_convStr` and `_convStr2`, `Str.h:283-308`, on an empty string; `junk` is what the memory holds behind the characters after the first `resize`. `none` is undefined behaviour. The result is never `~0`. -/
def convStr (conv : Conv) (src : List Nat) (len : Int) (junk : List Nat) : Option Result :=
  match conv src len none with
  | none => none
  | some (r, _) =>
    match conv src len (some (List.replicate r 0 ++ junk)) with
    | none => none
    | some (r', mem) => some (resizePred mem r r')

/-- `StrT(const OTHER_C*)`, `StrT(const OTHER_C2*)`, `Str.h:128`, `130`, and the assignments, `Str.h:166-167`: nothing for a null pointer. -/
def fromPointer (conv : Conv) (text : Option (List Nat)) (junk : List Nat) : Option Result :=
  match text with
  | none => some (.ok [])
  | some src => convStr conv src (-1) junk

/-- `StrT(const StrT<OTHER_C, U>&)` and so on, `Str.h:124-125`, and the assignments, `Str.h:163-164`. -/
def fromString (conv : Conv) (s junk : List Nat) : Option Result := convStr conv (s ++ [0]) (s.length + 1) junk

/-- `StrT(const OTHER_C*, size_t)`, `StrT(const OTHER_C2*, size_t)`, `Str.h:129`, `131`. -/
def fromCount (conv : Conv) (text : Option (List Nat)) (count : Nat) (junk : List Nat) : Option Result :=
  match text with
  | none => some (.ok [])
  | some src => convStr conv src count junk

/-! ## Lemmas -/

theorem convStr_of {conv : Conv} {src : List Nat} {len : Int} {q : Nat} {b out junk : List Nat} (hq : conv src len none = some (q, b)) (hl : out.length ≤ q)
    (ho : ∀ buf : List Nat, q ≤ buf.length → conv src len (some buf) = some (out.length, out ++ buf.drop out.length)) :
    convStr conv src len junk = some (if out.length = 0 then .lengthError else .ok out.dropLast) := by
  have e := ho (List.replicate q 0 ++ junk) (by simp)
  unfold convStr
  rw [hq]
  dsimp only
  rw [e]
  dsimp only
  unfold resizePred
  by_cases h0 : out.length = 0
  · rw [if_pos h0, if_pos h0]
  · rw [if_neg h0, if_neg h0, if_pos (by omega), List.take_append_of_le_length (by omega), List.dropLast_eq_take]

theorem scan_limit {w : Nat → Nat} : ∀ {l : List Nat} {c k : Nat} (rest : List Nat), (∀ c ∈ l, c ≠ 0) → (k = l.length ∨ c = 0 ∧ l.length ≤ k) →
    scan w (l ++ c :: rest) (some k) = some (l.length, 1 + total w l)
  | [], c, k, rest, _, hk => by
    unfold scan
    have : c = 0 ∨ some k = some 0 := by
      rcases hk with h | h
      · right; rw [h]; rfl
      · exact .inl h.1
    simp only [List.nil_append, if_pos this]; rfl
  | a :: l, c, k, rest, hz, hk => by
    have ha : a ≠ 0 := hz a (by simp)
    rw [List.length_cons] at hk
    have hk0 : some k ≠ some 0 := by intro h; injection h; omega
    have hne : ¬ (a = 0 ∨ some k = some 0) := fun h => h.elim ha hk0
    have ih := scan_limit (w := w) (l := l) (c := c) (k := k - 1) rest (fun x hx => hz x (by simp [hx])) (by omega)
    rw [List.cons_append, scan, if_neg hne]
    simp only [Option.map_some]
    rw [ih, Option.map_some, total_cons, List.length_cons]
    congr 2
    dsimp only; omega

theorem take_limit {l rest : List Nat} {c k : Nat} (hk : k = l.length ∨ c = 0 ∧ l.length < k) : (l ++ c :: rest).take (srcEnd l.length (some k)) = if k = l.length then l else l ++ [c] := by
  unfold srcEnd
  dsimp only
  rcases hk with h | ⟨-, h⟩
  · rw [if_neg (by omega), if_pos h, h, List.take_left']; rfl
  · rw [if_pos h, if_neg (by omega), List.take_append, List.take_of_length_le (by omega)]
    simp

/-- What `UTF32toUTF8` writes for a text that is limited or ends in front of the limit. -/
theorem out8 {l rest : List Nat} {c k : Nat} (hz : ∀ c ∈ l, c ≠ 0) (k0 : k ≠ 0) (hk : k = l.length ∨ c = 0 ∧ l.length < k) :
    utf32to8 (l ++ c :: rest) k none = some (1 + total w8 l, []) ∧ ∀ buf : List Nat, 1 + total w8 l ≤ buf.length →
      utf32to8 (l ++ c :: rest) k (some buf) = some (((if k = l.length then l else l ++ [c]).flatMap e8).length, (if k = l.length then l else l ++ [c]).flatMap e8 ++ buf.drop ((if k = l.length then l else l ++ [c]).flatMap e8).length) := by
  have hs := scan_limit (w := w8) (k := k) (c := c) rest hz (by omega)
  have hlim : limit (k : Int) = some k := by unfold limit; rw [if_neg (by omega)]; rfl
  have hk0 : ¬ ((k : Int) = 0) := by omega
  unfold utf32to8
  simp only [hk0, if_false, hlim, hs, Option.bind_some, take_limit hk]
  refine ⟨trivial, fun buf hb => ?_⟩
  generalize hm : (if k = l.length then l else l ++ [c]) = m
  have ht : total w8 m ≤ buf.length := by
    rw [← hm]
    split
    · omega
    · rcases hk with h | ⟨rfl, h⟩
      · contradiction
      · rw [total_append]; have : total w8 [0] = 1 := rfl
        omega
  have h2 := loop8_eq (src := m) (pre := []) (rest := buf)
  rw [e8s_all ht] at h2
  simpa using h2

/-- The same for `UTF32toUTF16`. -/
theorem out16 {l rest : List Nat} {c k : Nat} (hz : ∀ c ∈ l, c ≠ 0) (k0 : k ≠ 0) (hk : k = l.length ∨ c = 0 ∧ l.length < k) :
    utf32to16 (l ++ c :: rest) k none = some (1 + total w16 l, []) ∧ ∀ buf : List Nat, 1 + total w16 l ≤ buf.length →
      utf32to16 (l ++ c :: rest) k (some buf) = some (((if k = l.length then l else l ++ [c]).flatMap e16).length, (if k = l.length then l else l ++ [c]).flatMap e16 ++ buf.drop ((if k = l.length then l else l ++ [c]).flatMap e16).length) := by
  have hs := scan_limit (w := w16) (k := k) (c := c) rest hz (by omega)
  have hlim : limit (k : Int) = some k := by unfold limit; rw [if_neg (by omega)]; rfl
  have hk0 : ¬ ((k : Int) = 0) := by omega
  unfold utf32to16
  simp only [hk0, if_false, hlim, hs, Option.bind_some, take_limit hk]
  refine ⟨trivial, fun buf hb => ?_⟩
  generalize hm : (if k = l.length then l else l ++ [c]) = m
  have ht : total w16 m ≤ buf.length := by
    rw [← hm]
    split
    · omega
    · rcases hk with h | ⟨rfl, h⟩
      · contradiction
      · rw [total_append]; have : total w16 [0] = 1 := rfl
        omega
  have h2 := loop16_eq (src := m) (pre := []) (rest := buf)
  rw [e16s_all ht] at h2
  simpa using h2

theorem dropLast_snoc (l : List Nat) (a : Nat) : (l ++ [a]).dropLast = l := List.dropLast_concat

/-- A pointer to a text that ends with a zero. -/
theorem pointer_of {conv : Conv} {src out : List Nat} {q : Nat} (hq : conv src (-1) none = some (q, [])) (hl : out.length + 1 ≤ q)
    (ho : ∀ buf : List Nat, out.length + 1 ≤ buf.length → conv src (-1) (some buf) = some (out.length + 1, out ++ [0] ++ buf.drop (out.length + 1))) (junk : List Nat) :
    fromPointer conv (some src) junk = some (.ok out) := by
  have h := convStr_of (conv := conv) (src := src) (len := -1) (junk := junk) (out := out ++ [0]) hq (by simp; omega)
    (fun buf hb => by rw [ho buf (by omega)]; simp)
  rw [if_neg (by simp), dropLast_snoc] at h
  exact h

theorem utf16_length (text : List Char) : text.length ≤ (utf16 text).length := by
  unfold utf16
  induction text with
  | nil => exact Nat.le_refl _
  | cons c text ih =>
    have : 1 ≤ (utf16Char c).length := by unfold utf16Char; split <;> simp
    simp only [List.flatMap_cons, List.length_append, List.length_cons]; omega

/-! ## Theorems -/

/-- **C180**: a string made from a pointer to a zero-terminated text in another encoding has the characters of the text, whatever follows the text and however much memory the string takes. -/
theorem C180_pointer {text : List Char} (h : ∀ c ∈ text, c.toNat ≠ 0) (rest junk : List Nat) :
    fromPointer utf32to8 (some (utf32 text ++ 0 :: rest)) junk = some (.ok (utf8 text)) ∧ fromPointer utf32to16 (some (utf32 text ++ 0 :: rest)) junk = some (.ok (utf16 text)) ∧
    fromPointer utf8to32 (some (utf8 text ++ 0 :: rest)) junk = some (.ok (utf32 text)) ∧ fromPointer utf16to32 (some (utf16 text ++ 0 :: rest)) junk = some (.ok (utf32 text)) := by
  have e : (utf32 text).length = text.length := List.length_map ..
  have n : (-1 : Int) < 0 := by omega
  refine ⟨?_, ?_, ?_, ?_⟩
  · exact pointer_of (C48_encode h n rest).1 (Nat.le_refl _) (C48_encode h n rest).2 junk
  · exact pointer_of (C49_encode h n rest).1 (Nat.le_refl _) (C49_encode h n rest).2 junk
  · exact pointer_of (C48_decode h n rest).1 (by omega) (by rw [e]; exact (C48_decode h n rest).2) junk
  · exact pointer_of (C49_decode h n rest).1 (by rw [e]; have := utf16_length text; omega) (by rw [e]; exact (C49_decode h n rest).2) junk

theorem encodeString {text : List Char} (h : ∀ c ∈ text, c.toNat ≠ 0) (rest junk : List Nat) (k : Nat) (hk : text.length < k) :
    convStr utf32to8 (utf32 text ++ 0 :: rest) k junk = some (.ok (utf8 text)) ∧ convStr utf32to16 (utf32 text ++ 0 :: rest) k junk = some (.ok (utf16 text)) := by
  obtain ⟨hv, hz⟩ := text_ok h
  have e : (utf32 text).length = text.length := List.length_map ..
  obtain ⟨a1, a2⟩ := out8 (rest := rest) (c := 0) (k := k) hz (by omega) (.inr ⟨rfl, by omega⟩)
  obtain ⟨b1, b2⟩ := out16 (rest := rest) (c := 0) (k := k) hz (by omega) (.inr ⟨rfl, by omega⟩)
  rw [if_neg (by omega), List.flatMap_append, e8_text, show List.flatMap e8 [0] = [0] by decide] at a2
  rw [if_neg (by omega), List.flatMap_append, e16_text, show List.flatMap e16 [0] = [0] by decide] at b2
  constructor
  · have := convStr_of (junk := junk) a1 (by rw [total_e8, e8_text]; simp; omega) a2
    rwa [if_neg (by simp), dropLast_snoc] at this
  · have := convStr_of (junk := junk) b1 (by rw [total_e16 hv, e16_text]; simp; omega) b2
    rwa [if_neg (by simp), dropLast_snoc] at this

/-- **C180**: the same for a string made from a string of another encoding. Missing: texts with zeros, which are cut off (see `C180_zero_false`). -/
theorem C180_string_partial {text : List Char} (h : ∀ c ∈ text, c.toNat ≠ 0) (junk : List Nat) :
    fromString utf32to8 (utf32 text) junk = some (.ok (utf8 text)) ∧ fromString utf32to16 (utf32 text) junk = some (.ok (utf16 text)) ∧
    fromString utf8to32 (utf8 text) junk = some (.ok (utf32 text)) ∧ fromString utf16to32 (utf16 text) junk = some (.ok (utf32 text)) := by
  obtain ⟨hv, hz⟩ := text_ok h
  have e : (utf32 text).length = text.length := List.length_map ..
  obtain ⟨a, b⟩ := encodeString h [] junk ((utf32 text).length + 1) (by omega)
  refine ⟨a, b, ?_, ?_⟩
  · have hz' : ∀ x ∈ utf8 text, x ≠ 0 := fun x hx => by
      rw [← e8_text, List.mem_flatMap] at hx
      obtain ⟨v, hv, hx⟩ := hx
      exact e8_nonzero (hz v hv) x hx
    have hs := scan_limit (w := wlead) (k := (utf8 text).length + 1) (c := 0) [] hz' (.inr ⟨rfl, by omega⟩)
    have e0 : total wlead (utf8 text) = text.length := by rw [← e8_text, e8s_lead hv, e]
    have hlim : limit (((utf8 text).length : Int) + 1) = some ((utf8 text).length + 1) := by unfold limit; rw [if_neg (by omega)]; congr 1
    have hk0 : ¬ (((utf8 text).length : Int) + 1 = 0) := by omega
    have ht := take_limit (l := utf8 text) (rest := []) (c := 0) (k := (utf8 text).length + 1) (.inr ⟨rfl, by omega⟩)
    rw [if_neg (by omega)] at ht
    have h4 : srcEnd (utf8 text).length (some ((utf8 text).length + 1)) = (utf8 text ++ [0]).length := by simp [srcEnd]
    have h3 : utf8 text ++ [0] = (utf32 text ++ [0]).flatMap e8 := by rw [List.flatMap_append, e8_text]; rfl
    have h5 : d8 (utf8 text ++ [0]).length (utf8 text ++ [0]) = utf32 text ++ [0] := by
      rw [h3]
      exact d8_e8s (fun v hm => by
        rcases List.mem_append.1 hm with hm | hm
        · exact hv v hm
        · rw [List.mem_singleton] at hm; subst hm; decide) (Nat.le_refl _)
    have := convStr_of (conv := utf8to32) (src := utf8 text ++ [0]) (len := ((utf8 text).length : Int) + 1) (q := 1 + text.length) (b := []) (out := utf32 text ++ [0]) (junk := junk)
      (by unfold utf8to32; simp only [hk0, if_false, hlim, hs, Option.bind_some, e0]) (by simp [e]; omega) (fun buf hb => by
        unfold utf8to32
        simp only [hk0, if_false, hlim, hs, Option.bind_some]
        rw [ht, h4]
        have h2 := loop8to32_eq (utf8 text ++ [0]).length (utf8 text ++ [0]) [] buf
        rw [h5, List.take_of_length_le (by simp [e]; omega)] at h2
        simpa [e] using h2)
    rwa [if_neg (by simp), dropLast_snoc] at this
  · have h5 : d16 (utf16 text ++ [0]) = utf32 text ++ [0] := by rw [← e16_text, d16_e16s hv]; rfl
    have hk0 : ¬ (((utf16 text).length : Int) + 1 = 0) := by omega
    have hk1 : ¬ (((utf16 text).length : Int) + 1 < 0) := by omega
    have hk2 : (((utf16 text).length : Int) + 1).toNat = (utf16 text).length + 1 := by omega
    have := convStr_of (conv := utf16to32) (src := utf16 text ++ [0]) (len := ((utf16 text).length : Int) + 1) (q := (utf16 text).length + 1) (b := []) (out := utf32 text ++ [0]) (junk := junk)
      (by unfold utf16to32; simp only [hk0, hk1, hk2, if_false, Option.bind_some]) (by have := utf16_length text; simp [e]; omega) (fun buf hb => by
        unfold utf16to32
        simp only [hk0, hk1, hk2, if_false, Option.bind_some]
        rw [if_pos (by simp), List.take_of_length_le (by simp)]
        have h2 := loop16to32_eq (utf16 text ++ [0]) [] buf
        have hu := utf16_length text
        rw [h5, List.take_of_length_le (by simp [e]; omega)] at h2
        simpa [e] using h2)
    rwa [if_neg (by simp), dropLast_snoc] at this

/-- **C180**: strings go to UTF-8 and back unchanged. -/
theorem C180_back_partial {text : List Char} (h : ∀ c ∈ text, c.toNat ≠ 0) (junk junk' : List Nat) :
    ∃ s, fromString utf32to8 (utf32 text) junk = some (.ok s) ∧ fromString utf8to32 s junk' = some (.ok (utf32 text)) :=
  ⟨utf8 text, (C180_string_partial h junk).1, (C180_string_partial h junk').2.2.1⟩

example : (∀ c ∈ ['a', 'é', '€', '𝄞'], c.toNat ≠ 0) ∧ fromString utf32to8 (utf32 ['a', 'é', '€', '𝄞']) [7, 7] = some (.ok [0x61, 0xC3, 0xA9, 0xE2, 0x82, 0xAC, 0xF0, 0x9D, 0x84, 0x9E]) := by decide

/-- C180 fails for strings with zeros: whatever comes after the first one is lost. -/
theorem C180_zero_false {text : List Char} (h : ∀ c ∈ text, c.toNat ≠ 0) (more : List Char) (junk : List Nat) :
    fromString utf32to8 (utf32 text ++ 0 :: utf32 more) junk = some (.ok (utf8 text)) ∧ fromString utf32to16 (utf32 text ++ 0 :: utf32 more) junk = some (.ok (utf16 text)) := by
  have e : (utf32 text).length = text.length := List.length_map ..
  have := encodeString h (utf32 more ++ [0]) junk ((utf32 text ++ 0 :: utf32 more).length + 1) (by simp [e]; omega)
  unfold fromString
  rw [List.append_assoc, List.cons_append]
  exact this

/-- **C180**: with a count that reaches beyond the end of the text the string has the characters of the text. -/
theorem C180_count_partial {text : List Char} (h : ∀ c ∈ text, c.toNat ≠ 0) (rest junk : List Nat) (count : Nat) (hc : text.length < count) :
    fromCount utf32to8 (some (utf32 text ++ 0 :: rest)) count junk = some (.ok (utf8 text)) ∧ fromCount utf32to16 (some (utf32 text ++ 0 :: rest)) count junk = some (.ok (utf16 text)) :=
  encodeString h rest junk count hc

/-- C180 fails for a count of characters: the last unit of the result is lost, as if it were the terminator. -/
theorem C180_count_false {text : List Char} (h : ∀ c ∈ text, c.toNat ≠ 0) (hne : text ≠ []) (next : Nat) (rest junk : List Nat) :
    fromCount utf32to8 (some (utf32 text ++ next :: rest)) text.length junk = some (.ok (utf8 text).dropLast) ∧
    fromCount utf32to16 (some (utf32 text ++ next :: rest)) text.length junk = some (.ok (utf16 text).dropLast) := by
  obtain ⟨hv, hz⟩ := text_ok h
  have e : (utf32 text).length = text.length := List.length_map ..
  have hpos : text.length ≠ 0 := by rwa [Ne, List.length_eq_zero_iff]
  obtain ⟨a1, a2⟩ := out8 (rest := rest) (c := next) (k := text.length) hz hpos (.inl e.symm)
  obtain ⟨b1, b2⟩ := out16 (rest := rest) (c := next) (k := text.length) hz hpos (.inl e.symm)
  rw [if_pos e.symm, e8_text] at a2
  rw [if_pos e.symm, e16_text] at b2
  have l8 : (utf8 text).length ≠ 0 := by
    rw [← e8_text, ← total_e8]
    obtain ⟨c, t, rfl⟩ := List.exists_cons_of_ne_nil hne
    show total w8 (c.toNat :: _) ≠ 0
    rw [total_cons]
    have : 1 ≤ w8 c.toNat := by
      unfold w8
      split
      · omega
      split
      · omega
      split
      · omega
      split <;> omega
    omega
  have l16 : (utf16 text).length ≠ 0 := by have := utf16_length text; omega
  constructor
  · have := convStr_of (junk := junk) a1 (by rw [total_e8, e8_text]; omega) a2
    rwa [if_neg l8] at this
  · have := convStr_of (junk := junk) b1 (by rw [total_e16 hv, e16_text]; omega) b2
    rwa [if_neg l16] at this

/-- C180 fails for a count of zero: `resize` throws. -/
theorem C180_empty_false (src junk : List Nat) : fromCount utf32to8 (some src) 0 junk = some .lengthError ∧ fromCount utf32to16 (some src) 0 junk = some .lengthError ∧
    fromCount utf8to32 (some src) 0 junk = some .lengthError ∧ fromCount utf16to32 (some src) 0 junk = some .lengthError := ⟨rfl, rfl, rfl, rfl⟩

end Verif.StrConv
