import Verif.Utf.Decode
import Verif.Utf.Spec

/-! # UTF conversion: properties -/

namespace Verif.Utf

/-! ## C47: which byte sequences are accepted -/

theorem second_iff {a b : Nat} : second a b = true ↔
    (a = 0xE0 → 0xA0 ≤ b) ∧ (a = 0xED → b ≤ 0x9F) ∧ (a = 0xF0 → 0x90 ≤ b) ∧ (a = 0xF4 → b ≤ 0x8F) ∧ (a ≠ 0xE0 → a ≠ 0xED → a ≠ 0xF0 → a ≠ 0xF4 → 0x80 ≤ b) := by
  unfold second
  repeat' split
  all_goals (simp; omega)

theorem first_iff {a : Nat} : first a = true ↔ ¬(0x80 ≤ a ∧ a < 0xC2) ∧ a ≤ 0xF4 := by
  unfold first; simp; omega

theorem cont_iff {a : Nat} : cont a = true ↔ 0x80 ≤ a ∧ a ≤ 0xBF := by
  unfold cont; simp

theorem isLegal_iff {src : List Nat} {b n : Nat} (hb : src[0]? = some b) (hn : n ≤ src.length) (hl : LengthFor b n) :
    isLegal src n = some true ↔ WellFormed (src.take n) := by
  obtain ⟨l1, l2, l3, l4⟩ := hl
  match n, src, hb, hn with
  | 0, b' :: src, hb, _ =>
    simp at hb; subst hb
    simp [isLegal, WellFormed]
  | 1, a :: src, hb, _ =>
    simp at hb; subst hb
    simp only [isLegal, WellFormed, List.getElem?_cons_zero, Option.map_some, Option.some.injEq, first_iff, List.take_succ_cons, List.take_zero]
    omega
  | 2, a :: x :: src, hb, _ =>
    simp at hb; subst hb
    simp only [isLegal, WellFormed, List.getElem?_cons_zero, List.getElem?_cons_succ, Option.bind_some, Option.map_some, List.take_succ_cons, List.take_zero]
    cases hx : cont x with
    | false =>
      have := mt cont_iff.2 (by rw [hx]; simp)
      simp; omega
    | true =>
      have := cont_iff.1 hx
      simp only [Bool.not_true, Bool.false_eq_true, if_false, Option.some.injEq, Bool.and_eq_true, second_iff, first_iff]
      omega
  | 3, a :: x :: y :: src, hb, _ =>
    simp at hb; subst hb
    simp only [isLegal, WellFormed, List.getElem?_cons_zero, List.getElem?_cons_succ, Option.bind_some, Option.map_some, List.take_succ_cons, List.take_zero]
    cases hy : cont y with
    | false =>
      have := mt cont_iff.2 (by rw [hy]; simp)
      simp; omega
    | true =>
    have := cont_iff.1 hy
    cases hx : cont x with
    | false =>
      have := mt cont_iff.2 (by rw [hx]; simp)
      simp; omega
    | true =>
      have := cont_iff.1 hx
      simp only [Bool.not_true, Bool.false_eq_true, if_false, Option.some.injEq, Bool.and_eq_true, second_iff, first_iff]
      omega
  | 4, a :: x :: y :: z :: src, hb, _ =>
    simp at hb; subst hb
    simp only [isLegal, WellFormed, List.getElem?_cons_zero, List.getElem?_cons_succ, Option.bind_some, Option.map_some, List.take_succ_cons, List.take_zero]
    cases hz : cont z with
    | false =>
      have := mt cont_iff.2 (by rw [hz]; simp)
      simp; omega
    | true =>
    have := cont_iff.1 hz
    cases hy : cont y with
    | false =>
      have := mt cont_iff.2 (by rw [hy]; simp)
      simp; omega
    | true =>
    have := cont_iff.1 hy
    cases hx : cont x with
    | false =>
      have := mt cont_iff.2 (by rw [hx]; simp)
      simp; omega
    | true =>
      have := cont_iff.1 hx
      simp only [Bool.not_true, Bool.false_eq_true, if_false, Option.some.injEq, Bool.and_eq_true, second_iff, first_iff]
      omega
  | n + 5, a :: x :: y :: z :: w :: src, hb, _ => simp [isLegal, WellFormed]

/-- **C47.** Given the length that goes with the first byte, exactly the rows of Table 3-7 are accepted. -/
theorem C47_legal {src : List Nat} {b n : Nat} (hb : src[0]? = some b) (hn : n ≤ src.length) (hl : LengthFor b n) :
    (isLegal src n = some true ↔ WellFormed (src.take n)) ∧ (isLegal src n = some false ↔ ¬WellFormed (src.take n)) := by
  have h := isLegal_iff hb hn hl
  obtain ⟨r, hr⟩ := isLegal_some hn
  refine ⟨h, ?_⟩
  rw [← h, hr]
  cases r <;> simp

theorem lengthFor_trailing (b : Nat) : LengthFor b (trailing b + 1) := by
  unfold LengthFor trailing
  repeat' split
  all_goals omega

theorem wellFormed_length {src : List Nat} {b : Nat} (hb : src[0]? = some b) : ∀ {n}, WellFormed (src.take n) → n ≤ src.length → n = trailing b + 1 := by
  intro n h hn
  have key : ∀ m, (src.take n) = m → WellFormed m → m.length = trailing b + 1 := by
    intro m hm hw
    have h0 : 0 < n → m[0]? = some b := fun h0 => by rw [← hm, List.getElem?_take, if_pos h0, hb]
    match m, hw with
    | [a], hw | [a, _], hw | [a, _, _], hw | [a, _, _, _], hw =>
      have : 0 < n := by
        refine Nat.pos_of_ne_zero fun e => ?_
        rw [e] at hm; simp at hm
      have := h0 this
      simp at this
      subst this
      simp only [WellFormed] at hw
      have := lengthFor_trailing a
      unfold LengthFor at this
      simp only [List.length_cons, List.length_nil]
      omega
  have := key _ rfl h
  rw [List.length_take] at this
  omega

/-- **C47, sequence form.** A buffer passes exactly when it begins with a well-formed sequence. -/
theorem C47_sequence {src : List Nat} (hne : src ≠ []) :
    (isLegalSeq src = some true ↔ ∃ n ≤ src.length, WellFormed (src.take n)) ∧ ∃ r, isLegalSeq src = some r := by
  match src, hne with
  | b :: src, _ =>
    have hb : (b :: src)[0]? = some b := rfl
    unfold isLegalSeq
    rw [hb, Option.bind_some]
    by_cases h : trailing b + 1 > (b :: src).length
    · rw [if_pos h]
      refine ⟨⟨fun h => (by cases h), fun ⟨n, h1, h2⟩ => ?_⟩, _, rfl⟩
      have := wellFormed_length hb h2 h1
      omega
    · rw [if_neg h]
      refine ⟨?_, isLegal_some (by omega)⟩
      rw [isLegal_iff hb (by omega) (lengthFor_trailing b)]
      exact ⟨fun h' => ⟨_, by omega, h'⟩, fun ⟨n, h1, h2⟩ => wellFormed_length hb h2 h1 ▸ h2⟩

/-- Euro sign followed by something else; and a surrogate, an overlong form. -/
example : ([0xE2, 0x82, 0xAC, 0x41] : List Nat)[0]? = some 0xE2 ∧ 3 ≤ [0xE2, 0x82, 0xAC, 0x41].length ∧ LengthFor 0xE2 3 ∧
    isLegal [0xE2, 0x82, 0xAC, 0x41] 3 = some true ∧ isLegal [0xED, 0xA0, 0x80] 3 = some false ∧ isLegal [0xC0, 0x80] 2 = some false :=
  ⟨rfl, by decide, by unfold LengthFor; omega, by decide, by decide, by decide⟩

/-! ## C48 and C49: round trips -/

theorem char_scalar (c : Char) : IsScalar c.toNat := by
  have := c.valid
  unfold IsScalar
  show c.val.toNat < 0xD800 ∨ _
  simp only [UInt32.isValidChar, Nat.isValidChar] at this
  show _ ∨ (0xDFFF < c.val.toNat ∧ c.val.toNat < 0x110000)
  omega

theorem e8_char (c : Char) : e8 c.toNat = (String.utf8EncodeChar c).map (·.toNat) := by
  have h := char_scalar c
  unfold IsScalar at h
  have hu : ∀ n, n < 256 → (UInt8.ofNat n).toNat = n := fun n h => by simp [UInt8.toNat_ofNat']; omega
  have hc : c.val.toNat = c.toNat := rfl
  unfold e8 String.utf8EncodeChar
  simp only [hc]
  generalize c.toNat = v at h
  rw [if_pos (show v ≤ 0x10FFFF by omega)]
  by_cases h1 : v < 0x80
  · rw [if_pos h1, if_pos (by omega)]
    simp only [List.map_cons, List.map_nil]
    rw [hu _ (by omega), Nat.mod_eq_of_lt (by omega)]
  by_cases h2 : v < 0x800
  · rw [if_neg h1, if_pos h2, if_neg (by omega), if_pos (by omega)]
    simp only [List.map_cons, List.map_nil]
    rw [hu _ (by omega), hu _ (by omega), Nat.mod_eq_of_lt (show v / 64 < 32 by omega)]
  by_cases h3 : v < 0x10000
  · rw [if_neg h1, if_neg h2, if_pos (.inl h3), if_neg (by omega), if_neg (by omega), if_pos (by omega)]
    simp only [List.map_cons, List.map_nil]
    rw [hu _ (by omega), hu _ (by omega), hu _ (by omega), Nat.mod_eq_of_lt (show v / 4096 < 16 by omega)]
  · rw [if_neg h1, if_neg h2, if_neg (by omega), if_neg (by omega), if_neg (by omega), if_neg (by omega)]
    simp only [List.map_cons, List.map_nil]
    rw [hu _ (by omega), hu _ (by omega), hu _ (by omega), hu _ (by omega), Nat.mod_eq_of_lt (show v / 262144 < 8 by omega)]

theorem e8_text (text : List Char) : (utf32 text).flatMap e8 = utf8 text := by
  unfold utf8 utf32
  induction text with
  | nil => rfl
  | cons c text ih => simp only [List.map_cons, List.flatMap_cons, List.map_append, ih, e8_char]

theorem e16_text (text : List Char) : (utf32 text).flatMap e16 = utf16 text := by
  unfold utf16 utf32
  induction text with
  | nil => rfl
  | cons c text ih =>
    have : e16 c.toNat = utf16Char c := by
      have h := char_scalar c
      unfold IsScalar at h
      unfold e16 utf16Char
      split
      · rw [if_neg (by omega), if_pos (by omega)]
      · rw [if_neg (by omega), if_neg (by omega)]
    simp only [List.map_cons, List.flatMap_cons, ih, this]

theorem total_e8 (l : List Nat) : total w8 l = (l.flatMap e8).length := by
  induction l with
  | nil => rfl
  | cons a l ih => rw [total_cons, List.flatMap_cons, List.length_append, e8_length, ih]

theorem total_e16 {l : List Nat} (h : ∀ v ∈ l, IsScalar v) : total w16 l = (l.flatMap e16).length := by
  induction l with
  | nil => rfl
  | cons a l ih =>
    have ha := h a (by simp)
    have : (e16 a).length = w16 a := by
      unfold IsScalar at ha
      unfold e16 w16
      by_cases h1 : a ≤ 0xFFFF
      · rw [if_pos h1, if_neg (by omega), if_neg (by omega)]; rfl
      · rw [if_neg h1, if_neg (by omega), if_pos (by omega)]; rfl
    rw [total_cons, List.flatMap_cons, List.length_append, this, ih fun v hv => h v (by simp [hv])]

theorem limit_neg {n : Int} (h : n < 0) : limit n = none := by unfold limit; rw [if_pos h]

/-- A text without zero characters. -/
theorem text_ok {text : List Char} (h : ∀ c ∈ text, c.toNat ≠ 0) : (∀ v ∈ utf32 text, IsScalar v) ∧ ∀ v ∈ utf32 text, v ≠ 0 := by
  unfold utf32
  refine ⟨fun v hv => ?_, fun v hv => ?_⟩
  · obtain ⟨c, -, rfl⟩ := List.mem_map.1 hv
    exact char_scalar c
  · obtain ⟨c, hc, rfl⟩ := List.mem_map.1 hv
    exact h c hc

theorem take_text (l rest : List Nat) : (l ++ 0 :: rest).take (srcEnd l.length none) = l ++ [0] := by
  show (l ++ 0 :: rest).take (l.length + 1) = _
  rw [List.take_append, List.take_of_length_le (by omega)]
  simp

/-- **C48, encoding.** For zero-terminated text the length query gives the length of its UTF-8 form with the terminator, and a buffer of at least that size receives exactly that form. -/
theorem C48_encode {text : List Char} (h : ∀ c ∈ text, c.toNat ≠ 0) {srclen : Int} (hl : srclen < 0) (rest : List Nat) :
    utf32to8 (utf32 text ++ 0 :: rest) srclen none = some ((utf8 text).length + 1, []) ∧
    ∀ buf : List Nat, (utf8 text).length + 1 ≤ buf.length →
      utf32to8 (utf32 text ++ 0 :: rest) srclen (some buf) = some ((utf8 text).length + 1, utf8 text ++ [0] ++ buf.drop ((utf8 text).length + 1)) := by
  obtain ⟨-, hz⟩ := text_ok h
  have hs := scan_text (w := w8) rest hz
  have e0 : total w8 (utf32 text) = (utf8 text).length := by rw [total_e8, e8_text]
  have hl0 : srclen ≠ 0 := by omega
  unfold utf32to8
  simp only [hl0, if_false, limit_neg hl, hs, Option.bind_some, take_text]
  refine ⟨by simp [e0, Nat.add_comm], fun buf hb => ?_⟩
  have h1 : total w8 (utf32 text ++ [0]) = (utf8 text).length + 1 := by rw [total_append, e0]; rfl
  have h2 := loop8_eq (src := utf32 text ++ [0]) (pre := []) (rest := buf)
  rw [e8s_all (by omega), List.flatMap_append, e8_text] at h2
  have h3 : List.flatMap e8 [0] = [0] := by decide
  rw [h3] at h2
  simpa using h2

/-- **C48, decoding.** The other way round. -/
theorem C48_decode {text : List Char} (h : ∀ c ∈ text, c.toNat ≠ 0) {srclen : Int} (hl : srclen < 0) (rest : List Nat) :
    utf8to32 (utf8 text ++ 0 :: rest) srclen none = some (text.length + 1, []) ∧
    ∀ buf : List Nat, text.length + 1 ≤ buf.length →
      utf8to32 (utf8 text ++ 0 :: rest) srclen (some buf) = some (text.length + 1, utf32 text ++ [0] ++ buf.drop (text.length + 1)) := by
  obtain ⟨hv, hz⟩ := text_ok h
  have hlen : (utf32 text).length = text.length := List.length_map ..
  have hz' : ∀ x ∈ utf8 text, x ≠ 0 := fun x hx => by
    rw [← e8_text, List.mem_flatMap] at hx
    obtain ⟨v, hv, hx⟩ := hx
    exact e8_nonzero (hz v hv) x hx
  have hs := scan_text (w := wlead) rest hz'
  have e0 : total wlead (utf8 text) = text.length := by rw [← e8_text, e8s_lead hv, hlen]
  have hl0 : srclen ≠ 0 := by omega
  unfold utf8to32
  simp only [hl0, if_false, limit_neg hl, hs, Option.bind_some, take_text]
  refine ⟨by simp [e0, Nat.add_comm], fun buf hb => ?_⟩
  have h3 : utf8 text ++ [0] = (utf32 text ++ [0]).flatMap e8 := by rw [List.flatMap_append, e8_text]; rfl
  have h4 : srcEnd (utf8 text).length none = (utf8 text ++ [0]).length := by simp [srcEnd]
  have h2 := loop8to32_eq (srcEnd (utf8 text).length none) (utf8 text ++ [0]) [] buf
  have h5 : d8 (srcEnd (utf8 text).length none) (utf8 text ++ [0]) = utf32 text ++ [0] := by
    rw [h4, h3]
    exact d8_e8s (fun v hm => by
      rcases List.mem_append.1 hm with hm | hm
      · exact hv v hm
      · rw [List.mem_singleton] at hm; subst hm; decide) (Nat.le_refl _)
  rw [h5, List.take_of_length_le (by simp [hlen]; omega)] at h2
  simpa [hlen] using h2

/-- **C48.** Text converted to UTF-8 and back, with buffers of the sizes reported by the length queries, is the same text. -/
theorem C48_roundtrip {text : List Char} (h : ∀ c ∈ text, c.toNat ≠ 0) {n m : Int} (hn : n < 0) (hm : m < 0) :
    ∃ q8 q32, utf32to8 (utf32 text ++ [0]) n none = some (q8, []) ∧ ∀ buf : List Nat, buf.length = q8 →
      ∃ bytes, utf32to8 (utf32 text ++ [0]) n (some buf) = some (q8, bytes) ∧ utf8to32 bytes m none = some (q32, []) ∧
        ∀ buf' : List Nat, buf'.length = q32 → utf8to32 bytes m (some buf') = some (q32, utf32 text ++ [0]) := by
  obtain ⟨a1, a2⟩ := C48_encode h hn []
  obtain ⟨b1, b2⟩ := C48_decode h hm []
  refine ⟨_, text.length + 1, a1, fun buf hb => ⟨_, a2 buf (by omega), ?_, fun buf' hb' => ?_⟩⟩
  · rw [List.drop_of_length_le (by omega), List.append_nil]; exact b1
  · rw [List.drop_of_length_le (by omega), List.append_nil]
    rw [b2 buf' (by omega), List.drop_of_length_le (l := buf') (by omega), List.append_nil]

/-- **C49, encoding.** A surrogate pair exactly for every character above U+FFFF (`utf16`). -/
theorem C49_encode {text : List Char} (h : ∀ c ∈ text, c.toNat ≠ 0) {srclen : Int} (hl : srclen < 0) (rest : List Nat) :
    utf32to16 (utf32 text ++ 0 :: rest) srclen none = some ((utf16 text).length + 1, []) ∧
    ∀ buf : List Nat, (utf16 text).length + 1 ≤ buf.length →
      utf32to16 (utf32 text ++ 0 :: rest) srclen (some buf) = some ((utf16 text).length + 1, utf16 text ++ [0] ++ buf.drop ((utf16 text).length + 1)) := by
  obtain ⟨hv, hz⟩ := text_ok h
  have hs := scan_text (w := w16) rest hz
  have e0 : total w16 (utf32 text) = (utf16 text).length := by rw [total_e16 hv, e16_text]
  have hl0 : srclen ≠ 0 := by omega
  unfold utf32to16
  simp only [hl0, if_false, limit_neg hl, hs, Option.bind_some, take_text]
  refine ⟨by simp [e0, Nat.add_comm], fun buf hb => ?_⟩
  have h1 : total w16 (utf32 text ++ [0]) = (utf16 text).length + 1 := by rw [total_append, e0]; rfl
  have h2 := loop16_eq (src := utf32 text ++ [0]) (pre := []) (rest := buf)
  rw [e16s_all (by omega), List.flatMap_append, e16_text] at h2
  have h3 : List.flatMap e16 [0] = [0] := by decide
  rw [h3] at h2
  simpa using h2

/-- **C49, decoding.** The length query counts units, so it may be more than needed. -/
theorem C49_decode {text : List Char} (h : ∀ c ∈ text, c.toNat ≠ 0) {srclen : Int} (hl : srclen < 0) (rest : List Nat) :
    utf16to32 (utf16 text ++ 0 :: rest) srclen none = some ((utf16 text).length + 1, []) ∧
    ∀ buf : List Nat, text.length + 1 ≤ buf.length →
      utf16to32 (utf16 text ++ 0 :: rest) srclen (some buf) = some (text.length + 1, utf32 text ++ [0] ++ buf.drop (text.length + 1)) := by
  obtain ⟨hv, hz⟩ := text_ok h
  have hlen : (utf32 text).length = text.length := List.length_map ..
  have hz' : ∀ x ∈ utf16 text, x ≠ 0 := fun x hx => by
    rw [← e16_text, List.mem_flatMap] at hx
    obtain ⟨v, hv, hx⟩ := hx
    exact e16_nonzero (hz v hv) x hx
  have hs := wcslen_text rest hz'
  have hl0 : srclen ≠ 0 := by omega
  unfold utf16to32
  simp only [hl0, if_false, hl, if_true, hs, Option.map_some, Option.bind_some]
  refine ⟨trivial, fun buf hb => ?_⟩
  rw [if_pos (by simp), show (utf16 text ++ 0 :: rest).take ((utf16 text).length + 1) = utf16 text ++ [0] from take_text _ _]
  have h2 := loop16to32_eq (utf16 text ++ [0]) [] buf
  have h5 : d16 (utf16 text ++ [0]) = utf32 text ++ [0] := by
    rw [← e16_text, d16_e16s hv]; rfl
  rw [h5, List.take_of_length_le (by simp [hlen]; omega)] at h2
  simpa [hlen] using h2

/-- **C49.** Text converted to UTF-16 and back, with buffers of the sizes reported by the length queries, is the same text. -/
theorem C49_roundtrip {text : List Char} (h : ∀ c ∈ text, c.toNat ≠ 0) {n m : Int} (hn : n < 0) (hm : m < 0) :
    ∃ q16 q32, utf32to16 (utf32 text ++ [0]) n none = some (q16, []) ∧ ∀ buf : List Nat, buf.length = q16 →
      ∃ units, utf32to16 (utf32 text ++ [0]) n (some buf) = some (q16, units) ∧ units = utf16 text ++ [0] ∧ utf16to32 units m none = some (q32, []) ∧
        ∀ buf' : List Nat, buf'.length = q32 →
          utf16to32 units m (some buf') = some (text.length + 1, utf32 text ++ [0] ++ buf'.drop (text.length + 1)) := by
  obtain ⟨a1, a2⟩ := C49_encode h hn []
  obtain ⟨b1, b2⟩ := C49_decode h hm []
  have hle : text.length ≤ (utf16 text).length := by
    unfold utf16
    clear a1 a2 b1 b2 h
    induction text with
    | nil => exact Nat.le_refl _
    | cons c text ih =>
      have : 1 ≤ (utf16Char c).length := by unfold utf16Char; split <;> simp
      simp only [List.flatMap_cons, List.length_append, List.length_cons]; omega
  refine ⟨_, (utf16 text).length + 1, a1, fun buf hb => ⟨_, a2 buf (by omega), ?_, ?_, fun buf' hb' => ?_⟩⟩
  · rw [List.drop_of_length_le (by omega), List.append_nil]
  · rw [List.drop_of_length_le (by omega), List.append_nil]; exact b1
  · rw [List.drop_of_length_le (by omega), List.append_nil]
    exact b2 buf' (by omega)

/-- The hypotheses hold for a text with characters of all four sizes. -/
example : (∀ c ∈ ['a', 'é', '€', '𝄞'], c.toNat ≠ 0) ∧ utf8 ['a', 'é', '€', '𝄞'] = [0x61, 0xC3, 0xA9, 0xE2, 0x82, 0xAC, 0xF0, 0x9D, 0x84, 0x9E] ∧
    utf16 ['a', 'é', '€', '𝄞'] = [0x61, 0xE9, 0x20AC, 0xD834, 0xDD1E] := by decide

/-! ## C50: buffers -/

theorem bounded_of {conv : List Nat → Int → Option (List Nat) → Option (Nat × List Nat)} {src : List Nat} {srclen : Int} {q : Nat} {f : Nat → List Nat}
    (hf : ∀ n, (f n).length ≤ n) (hq : ∀ n, q ≤ n → f n = f q)
    (hc : ∀ buf : List Nat, conv src srclen (some buf) = some ((f buf.length).length, f buf.length ++ buf.drop (f buf.length).length)) :
    (∀ buf : List Nat, ∃ n buf', conv src srclen (some buf) = some (n, buf') ∧ n ≤ buf.length ∧ buf'.length = buf.length ∧ buf'.drop n = buf.drop n) ∧
    ∃ out : List Nat, out.length ≤ q ∧ ∀ buf : List Nat, q ≤ buf.length → conv src srclen (some buf) = some (out.length, out ++ buf.drop out.length) := by
  refine ⟨fun buf => ⟨_, _, hc buf, hf _, ?_, ?_⟩, f q, hf q, fun buf hb => ?_⟩
  · have := hf buf.length
    rw [List.length_append, List.length_drop]; omega
  · rw [List.drop_left]
  · rw [hc buf, hq _ hb]

theorem zero_bounded {conv : List Nat → Int → Option (List Nat) → Option (Nat × List Nat)} {src : List Nat} {q : Nat}
    (hc : ∀ buf : List Nat, conv src 0 (some buf) = some (0, buf)) :
    (∀ buf : List Nat, ∃ n buf', conv src 0 (some buf) = some (n, buf') ∧ n ≤ buf.length ∧ buf'.length = buf.length ∧ buf'.drop n = buf.drop n) ∧
    ∃ out : List Nat, out.length ≤ q ∧ ∀ buf : List Nat, q ≤ buf.length → conv src 0 (some buf) = some (out.length, out ++ buf.drop out.length) :=
  ⟨fun buf => ⟨0, buf, hc buf, Nat.zero_le _, rfl, rfl⟩, [], Nat.zero_le _, fun buf _ => hc buf⟩

/-- **C50, UTF-32 to UTF-8**, whatever the input. -/
theorem C50_utf32to8 : Bounded utf32to8 := by
  intro src srclen q b _ h
  by_cases h0 : srclen = 0
  · subst h0; exact zero_bounded fun buf => rfl
  · unfold utf32to8 at h
    rw [if_neg h0, Option.bind_eq_some_iff] at h
    obtain ⟨⟨p, q'⟩, h1, h2⟩ := h
    cases h2
    have ht := total_srcEnd h1 (by rfl)
    refine bounded_of (f := e8s (src.take (srcEnd p (limit srclen)))) (e8s_le _) (fun n hn => ?_) fun buf => ?_
    · show _ = e8s _ q'
      rw [e8s_all (Nat.le_trans ht hn), e8s_all ht]
    · unfold utf32to8
      rw [if_neg h0, h1, Option.bind_some]
      simpa using loop8_eq (src := src.take (srcEnd p (limit srclen))) (pre := []) (rest := buf)

/-- **C50, UTF-32 to UTF-16.** -/
theorem C50_utf32to16 : Bounded utf32to16 := by
  intro src srclen q b _ h
  by_cases h0 : srclen = 0
  · subst h0; exact zero_bounded fun buf => rfl
  · unfold utf32to16 at h
    rw [if_neg h0, Option.bind_eq_some_iff] at h
    obtain ⟨⟨p, q'⟩, h1, h2⟩ := h
    cases h2
    have ht := total_srcEnd h1 (by rfl)
    refine bounded_of (f := e16s (src.take (srcEnd p (limit srclen)))) (e16s_le _) (fun n hn => ?_) fun buf => ?_
    · show _ = e16s _ q'
      rw [e16s_all (Nat.le_trans ht hn), e16s_all ht]
    · unfold utf32to16
      rw [if_neg h0, h1, Option.bind_some]
      simpa using loop16_eq (src := src.take (srcEnd p (limit srclen))) (pre := []) (rest := buf)

/-- **C50, UTF-8 to UTF-32.** -/
theorem C50_utf8to32 : Bounded utf8to32 := by
  intro src srclen q b _ h
  by_cases h0 : srclen = 0
  · subst h0; exact zero_bounded fun buf => rfl
  · unfold utf8to32 at h
    rw [if_neg h0, Option.bind_eq_some_iff] at h
    obtain ⟨⟨p, q'⟩, h1, h2⟩ := h
    cases h2
    have ht := Nat.le_trans (d8_le (srcEnd p (limit srclen)) _) (total_srcEnd h1 (by rfl))
    refine bounded_of (f := fun n => (d8 (srcEnd p (limit srclen)) (src.take (srcEnd p (limit srclen)))).take n) (fun n => List.length_take_le ..) (fun n hn => ?_) fun buf => ?_
    · show _ = List.take q' _
      rw [List.take_of_length_le (Nat.le_trans ht hn), List.take_of_length_le ht]
    · unfold utf8to32
      rw [if_neg h0, h1, Option.bind_some]
      simpa using loop8to32_eq (srcEnd p (limit srclen)) (src.take (srcEnd p (limit srclen))) [] buf

theorem wcslen_le : ∀ {l : List Nat} {n : Nat}, wcslen l = some n → n + 1 ≤ l.length
  | [], _, h => by simp [wcslen] at h
  | c :: m, n, h => by
    rw [wcslen] at h
    split at h
    · cases h; simp
    · rw [Option.map_eq_some_iff] at h
      obtain ⟨k, h1, rfl⟩ := h
      have := wcslen_le h1
      simp; omega

/-- **C50, UTF-16 to UTF-32.** -/
theorem C50_utf16to32 : Bounded utf16to32 := by
  intro src srclen q b hs h
  by_cases h0 : srclen = 0
  · subst h0; exact zero_bounded fun buf => rfl
  · unfold utf16to32 at h
    rw [if_neg h0, Option.bind_eq_some_iff] at h
    obtain ⟨n, h1, h2⟩ := h
    cases h2
    have hn : q ≤ src.length := by
      split at h1
      · rw [Option.map_eq_some_iff] at h1
        obtain ⟨k, h1, rfl⟩ := h1
        exact wcslen_le h1
      · cases h1; omega
    have ht : (d16 (src.take q)).length ≤ q := Nat.le_trans (d16_le _) (List.length_take_le ..)
    refine bounded_of (f := fun n => (d16 (src.take q)).take n) (fun n => List.length_take_le ..) (fun n hn => ?_) fun buf => ?_
    · show _ = List.take q _
      rw [List.take_of_length_le (Nat.le_trans ht hn), List.take_of_length_le ht]
    · unfold utf16to32
      rw [if_neg h0, h1, Option.bind_some]
      simp only [hn, if_true]
      simpa using loop16to32_eq (src.take q) [] buf

/-- The length query works on every input that is terminated or longer than the given length. -/
theorem scan_some {w : Nat → Nat} : ∀ {src : List Nat} {lim : Option Nat}, (0 ∈ src ∨ ∃ l, lim = some l ∧ l < src.length) → ∃ r, scan w src lim = some r
  | [], lim, h => by
    rcases h with h | ⟨l, -, h⟩
    · simp at h
    · simp at h
  | c :: m, lim, h => by
    rw [scan]
    split
    · exact ⟨_, rfl⟩
    · next hc =>
      obtain ⟨r, hr⟩ := scan_some (w := w) (src := m) (lim := lim.map (· - 1)) (by
        rcases h with h | ⟨l, rfl, h⟩
        · rcases List.mem_cons.1 h with h | h
          · exact absurd (.inl h.symm) hc
          · exact .inl h
        · refine .inr ⟨l - 1, rfl, ?_⟩
          have : l ≠ 0 := fun e => hc (.inr (by rw [e]))
          simp at h; omega)
      exact ⟨_, by rw [hr]; rfl⟩

/-- **C50, length query.** It is defined on every input that contains a zero or goes on after the given length. -/
theorem C50_query {src : List Nat} {srclen : Int} (h : 0 ∈ src ∨ 0 < srclen ∧ srclen < src.length) :
    (∃ q, utf32to8 src srclen none = some (q, [])) ∧ (∃ q, utf32to16 src srclen none = some (q, [])) ∧ (∃ q, utf8to32 src srclen none = some (q, [])) ∧
    ∃ q, utf16to32 src srclen none = some (q, []) := by
  by_cases h0 : srclen = 0
  · subst h0; exact ⟨⟨_, rfl⟩, ⟨_, rfl⟩, ⟨_, rfl⟩, ⟨_, rfl⟩⟩
  have hl : 0 ∈ src ∨ ∃ l, limit srclen = some l ∧ l < src.length := by
    rcases h with h | ⟨h1, h2⟩
    · exact .inl h
    · refine .inr ⟨srclen.toNat, ?_, by omega⟩
      unfold limit
      rw [if_neg (by omega)]
  have key : ∀ w, ∃ r, scan w src (limit srclen) = some r := fun w => scan_some hl
  obtain ⟨r1, h1⟩ := key w8
  obtain ⟨r2, h2⟩ := key w16
  obtain ⟨r3, h3⟩ := key wlead
  refine ⟨⟨r1.2, ?_⟩, ⟨r2.2, ?_⟩, ⟨r3.2, ?_⟩, ?_⟩
  · unfold utf32to8; rw [if_neg h0, h1]; rfl
  · unfold utf32to16; rw [if_neg h0, h2]; rfl
  · unfold utf8to32; rw [if_neg h0, h3]; rfl
  · unfold utf16to32
    rw [if_neg h0]
    by_cases hn : srclen < 0
    · rw [if_pos hn]
      have : ∀ {l : List Nat}, 0 ∈ l → ∃ n, wcslen l = some n := by
        intro l
        induction l with
        | nil => intro h; simp at h
        | cons c m ih =>
          intro h
          rw [wcslen]
          split
          · exact ⟨_, rfl⟩
          · next hc =>
            rcases List.mem_cons.1 h with h | h
            · exact absurd h.symm hc
            · obtain ⟨n, hn⟩ := ih h
              exact ⟨n + 1, by rw [hn]; rfl⟩
      have hz : 0 ∈ src := by
        rcases h with h | h
        · exact h
        · omega
      obtain ⟨n, hn⟩ := this hz
      exact ⟨n + 1, by rw [hn]; rfl⟩
    · rw [if_neg hn]; exact ⟨_, rfl⟩

/-- Malformed inputs with lengths, small buffers. -/
example : utf8to32 [0xE2, 0x82, 0xFF, 0x41, 0] 4 none = some (4, []) ∧ utf8to32 [0x41, 0xE2, 0x82, 0xFF, 0] 4 (some [7, 7, 7]) = some (1, [0x41, 7, 7]) ∧
    utf32to8 [0x20AC, 0x110000, 0x41, 0] 3 none = some (8, []) ∧ utf32to8 [0x20AC, 0x110000, 0x41, 0] 3 (some [7, 7, 7, 7]) = some (3, [0xE2, 0x82, 0xAC, 7]) := by decide

/-- The loops that count look at `input[srclen]` before they compare: without a terminator one unit too many is read. -/
theorem C50_overread_counterexample : utf32to8 [0x41] 1 (some [0, 0]) = none ∧ utf32to16 [0x41] 1 (some [0, 0]) = none ∧ utf8to32 [0x41] 1 (some [0, 0]) = none := by decide

end Verif.Utf
