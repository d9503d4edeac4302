import Verif.Base64.Model

/-!
# C10, C11: Base64
-/

namespace Verif.Base64

/-- The URL-safe alphabet of RFC 4648 §5, written as character ranges. -/
def UrlSafe (c : Nat) : Prop :=
  ('A'.toNat ≤ c ∧ c ≤ 'Z'.toNat) ∨ ('a'.toNat ≤ c ∧ c ≤ 'z'.toNat) ∨ ('0'.toNat ≤ c ∧ c ≤ '9'.toNat) ∨
    c = '-'.toNat ∨ c = '_'.toNat

instance (c : Nat) : Decidable (UrlSafe c) := by unfold UrlSafe; infer_instance

/-- The byte strings. -/
def Bytes (l : List Nat) : Prop := ∀ b ∈ l, b < 256

/-! ### facts about single tables and single operations (complete finite domains) -/

theorem look_ch : ∀ i, i < 64 → look (ch i) = some i := by decide +kernel
theorem ch_safe : ∀ i, i < 64 → UrlSafe (ch i) := by decide +kernel
theorem safe_ch_aux : ∀ c, c < 123 → UrlSafe c → ∃ i, i < 64 ∧ ch i = c := by decide +kernel

theorem safe_ch {c : Nat} (h : UrlSafe c) : ∃ i, i < 64 ∧ ch i = c := by
  refine safe_ch_aux c ?_ h
  have e1 : 'Z'.toNat = 90 := rfl
  have e2 : 'z'.toNat = 122 := rfl
  have e3 : '9'.toNat = 57 := rfl
  have e4 : '-'.toNat = 45 := rfl
  have e5 : '_'.toNat = 95 := rfl
  unfold UrlSafe at h
  omega

theorem m252 : ∀ a, a < 256 → (a &&& 0b11111100) >>> 2 = a / 4 := by decide +kernel
theorem m3 : ∀ a, a < 256 → (a &&& 0b00000011) <<< 4 = 16 * (a % 4) := by decide +kernel
theorem m240 : ∀ a, a < 256 → (a &&& 0b11110000) >>> 4 = a / 16 := by decide +kernel
theorem m15 : ∀ a, a < 256 → (a &&& 0b00001111) <<< 2 = 4 * (a % 16) := by decide +kernel
theorem m192 : ∀ a, a < 256 → (a &&& 0b11000000) >>> 6 = a / 64 := by decide +kernel
theorem m63 : ∀ a, a < 256 → a &&& 0b00111111 = a % 64 := by decide +kernel
theorem or16 : ∀ x, x < 4 → ∀ y, y < 16 → (16 * x) ||| y = 16 * x + y := by decide +kernel
theorem or4 : ∀ x, x < 16 → ∀ y, y < 4 → (4 * x) ||| y = 4 * x + y := by decide +kernel

theorem d0 {x y : Nat} (hx : x < 64) (hy : y < 64) : ((x <<< 2) ||| (y >>> 4)) % 256 = 4 * x + y / 16 := by
  have h1 : y >>> 4 = y / 16 := by simp [Nat.shiftRight_eq_div_pow]
  have h2 : x <<< 2 = 2 ^ 2 * x := by rw [Nat.shiftLeft_eq]; omega
  rw [h1, h2, ← Nat.two_pow_add_eq_or_of_lt (i := 2) (by omega)]
  omega

theorem d1 {y z : Nat} (hy : y < 64) (hz : z < 64) : ((y <<< 4) ||| (z >>> 2)) % 256 = 16 * (y % 16) + z / 4 := by
  have h1 : z >>> 2 = z / 4 := by simp [Nat.shiftRight_eq_div_pow]
  have h2 : y <<< 4 = 2 ^ 4 * y := by rw [Nat.shiftLeft_eq]; omega
  rw [h1, h2, ← Nat.two_pow_add_eq_or_of_lt (i := 4) (by omega)]
  omega

theorem d2 {z w : Nat} (hz : z < 64) (hw : w < 64) : ((z <<< 6) ||| w) % 256 = 64 * (z % 4) + w := by
  have h2 : z <<< 6 = 2 ^ 6 * z := by rw [Nat.shiftLeft_eq]; omega
  rw [h2, ← Nat.two_pow_add_eq_or_of_lt (i := 6) (by omega)]
  omega

theorem e1 {a b : Nat} (ha : a < 256) (hb : b < 256) :
    ((a &&& 0b00000011) <<< 4) ||| ((b &&& 0b11110000) >>> 4) = 16 * (a % 4) + b / 16 := by
  rw [m3 a ha, m240 b hb, or16 _ (by omega) _ (by omega)]

theorem e2 {b c : Nat} (hb : b < 256) (hc : c < 256) :
    ((b &&& 0b00001111) <<< 2) ||| ((c &&& 0b11000000) >>> 6) = 4 * (b % 16) + c / 64 := by
  rw [m15 b hb, m192 c hc, or4 _ (by omega) _ (by omega)]

theorem decodeBody_encode : ∀ (l : List Nat), Bytes l → decodeBody (encode l) = some l
  | a :: b :: c :: rest, h => by
    have ha : a < 256 := h a (by simp)
    have hb : b < 256 := h b (by simp)
    have hc : c < 256 := h c (by simp)
    have ih := decodeBody_encode rest (fun x hx => h x (by simp [hx]))
    rw [encode, m252 a ha, e1 ha hb, e2 hb hc, m63 c hc, decodeBody, look_ch (a / 4) (by omega),
      look_ch (16 * (a % 4) + b / 16) (by omega), look_ch (4 * (b % 16) + c / 64) (by omega), look_ch (c % 64) (by omega), ih]
    simp only [Option.bind_eq_bind, Option.bind_some]
    rw [d0 (by omega) (by omega), d1 (by omega) (by omega), d2 (by omega) (by omega)]
    congr 2
    · omega
    · congr 1
      · omega
      · congr 1
        omega
  | [a, b], h => by
    have ha : a < 256 := h a (by simp)
    have hb : b < 256 := h b (by simp)
    rw [encode, m252 a ha, e1 ha hb, m15 b hb, decodeBody, look_ch (a / 4) (by omega),
      look_ch (16 * (a % 4) + b / 16) (by omega), look_ch (4 * (b % 16)) (by omega)]
    simp only [Option.bind_eq_bind, Option.bind_some]
    rw [d0 (by omega) (by omega), d1 (by omega) (by omega)]
    congr 2
    · omega
    · congr 1
      omega
  | [a], h => by
    have ha : a < 256 := h a (by simp)
    rw [encode, m252 a ha, m3 a ha, decodeBody, look_ch (a / 4) (by omega), look_ch (16 * (a % 4)) (by omega)]
    simp only [Option.bind_eq_bind, Option.bind_some]
    rw [d0 (by omega) (by omega)]
    congr 2
    omega
  | [], _ => rfl

theorem and3 (n : Nat) : n &&& 0b11 = n % 4 := Nat.and_two_pow_sub_one_eq_mod n 2

theorem encode_length : ∀ (l : List Nat), (encode l).length = encodeLen l.length
  | a :: b :: c :: rest => by
    have ih := encode_length rest
    simp only [encode, List.length_cons, ih]
    unfold encodeLen
    have h1 : (rest.length + 1 + 1 + 1) / 3 = rest.length / 3 + 1 := by omega
    have h2 : (rest.length + 1 + 1 + 1) % 3 = rest.length % 3 := by omega
    rw [h1, h2]
    simp only [Nat.shiftLeft_eq]
    omega
  | [a, b] => by simp [encode, encodeLen]
  | [a] => by simp [encode, encodeLen]
  | [] => rfl

theorem encodeLen_mod (n : Nat) : encodeLen n % 4 ≠ 1 := by
  unfold encodeLen
  rw [Nat.shiftLeft_eq]
  split <;> omega

theorem decode_eq_body {l : List Nat} (h : l.length % 4 ≠ 1) : decode l = decodeBody l := by
  unfold decode
  rw [and3, if_neg h]

/-- C10: decoding what the encoder wrote gives back the original bytes, whatever they are. -/
theorem C10_round_trip {l : List Nat} (h : Bytes l) : decode (encode l) = some l := by
  rw [decode_eq_body (by rw [encode_length]; exact encodeLen_mod _), decodeBody_encode l h]

/-- C10: the encoder's reported length is the number of characters it writes. -/
theorem C10_encode_length (l : List Nat) : encodeLen l.length = (encode l).length := (encode_length l).symm

theorem decodeBody_length : ∀ (t : List Nat) (l : List Nat), decodeBody t = some l → t.length % 4 ≠ 1 →
    l.length = t.length / 4 * 3 + t.length % 4 - (if t.length % 4 ≠ 0 then 1 else 0)
  | a :: b :: c :: d :: rest, l, h, hm => by
    simp only [decodeBody, Option.bind_eq_bind, Option.bind_eq_some_iff] at h
    obtain ⟨x, _, y, _, z, _, w, _, t, ht, he⟩ := h
    injection he with he; subst he
    have hm' : rest.length % 4 ≠ 1 := by simp at hm; omega
    have ih := decodeBody_length rest t ht hm'
    simp only [List.length_cons, ih]
    have h1 : (rest.length + 1 + 1 + 1 + 1) / 4 = rest.length / 4 + 1 := by omega
    have h2 : (rest.length + 1 + 1 + 1 + 1) % 4 = rest.length % 4 := by omega
    simp only [h1, h2]
    split <;> omega
  | [a, b, c], l, h, _ => by
    simp only [decodeBody, Option.bind_eq_bind, Option.bind_eq_some_iff] at h
    obtain ⟨x, _, y, _, z, _, he⟩ := h
    injection he with he; subst he; simp
  | [a, b], l, h, _ => by
    simp only [decodeBody, Option.bind_eq_bind, Option.bind_eq_some_iff] at h
    obtain ⟨x, _, y, _, he⟩ := h
    injection he with he; subst he; simp
  | [_], l, h, hm => by simp at hm
  | [], l, h, _ => by
    simp [decodeBody] at h; subst h; rfl

/-- C10: the decoder's reported length is the number of bytes it writes, for every text it can read. -/
theorem C10_decode_length {t l : List Nat} (h : decode t = some l) : decodeLen t.length = l.length := by
  unfold decodeLen
  rw [and3]
  by_cases hm : t.length % 4 = 1
  · rw [if_pos hm]
    unfold decode at h
    rw [and3, if_pos hm] at h
    injection h with h; subst h; rfl
  · rw [if_neg hm]
    rw [decode_eq_body hm] at h
    rw [decodeBody_length t l h hm]
    simp [Nat.shiftRight_eq_div_pow]

/-- C11: every character written is in the URL-safe alphabet. -/
theorem C11_url_safe : ∀ {l : List Nat}, Bytes l → ∀ c ∈ encode l, UrlSafe c
  | a :: b :: c :: rest, h => by
    have ha : a < 256 := h a (by simp)
    have hb : b < 256 := h b (by simp)
    have hc : c < 256 := h c (by simp)
    have ih := C11_url_safe (l := rest) (fun x hx => h x (by simp [hx]))
    rw [encode, m252 a ha, e1 ha hb, e2 hb hc, m63 c hc]
    intro x hx
    simp only [List.mem_cons] at hx
    rcases hx with rfl | rfl | rfl | rfl | hx
    · exact ch_safe _ (by omega)
    · exact ch_safe _ (by omega)
    · exact ch_safe _ (by omega)
    · exact ch_safe _ (by omega)
    · exact ih x hx
  | [a, b], h => by
    have ha : a < 256 := h a (by simp)
    have hb : b < 256 := h b (by simp)
    rw [encode, m252 a ha, e1 ha hb, m15 b hb]
    intro x hx
    simp only [List.mem_cons, List.not_mem_nil, or_false] at hx
    rcases hx with rfl | rfl | rfl
    · exact ch_safe _ (by omega)
    · exact ch_safe _ (by omega)
    · exact ch_safe _ (by omega)
  | [a], h => by
    have ha : a < 256 := h a (by simp)
    rw [encode, m252 a ha, m3 a ha]
    intro x hx
    simp only [List.mem_cons, List.not_mem_nil, or_false] at hx
    rcases hx with rfl | rfl
    · exact ch_safe _ (by omega)
    · exact ch_safe _ (by omega)
  | [], _ => by simp [encode]

/-- C11: distinct byte strings have distinct encodings. -/
theorem C11_injective {l m : List Nat} (hl : Bytes l) (hm : Bytes m) (h : encode l = encode m) : l = m := by
  have := C10_round_trip hl
  rw [h, C10_round_trip hm] at this
  injection this with this
  exact this.symm

/-- C11: a text whose length is 1 modulo 4 is rejected (nothing written, length 0), whatever its characters. -/
theorem C11_bad_length_rejected {t : List Nat} (h : t.length % 4 = 1) : decode t = some [] ∧ decodeLen t.length = 0 := by
  constructor
  · unfold decode; rw [and3, if_pos h]
  · unfold decodeLen; rw [and3, if_pos h]

/-- C11: every text over the alphabet decodes without an access outside the table, to bytes. -/
theorem C11_alphabet_decodes {t : List Nat} (h : ∀ c ∈ t, UrlSafe c) : ∃ l, decode t = some l ∧ Bytes l := by
  by_cases hm : t.length % 4 = 1
  · exact ⟨[], (C11_bad_length_rejected hm).1, by simp [Bytes]⟩
  · rw [decode_eq_body hm]
    clear hm
    have look_safe : ∀ c, UrlSafe c → ∃ i, look c = some i := by
      intro c hc
      obtain ⟨i, hi, rfl⟩ := safe_ch hc
      exact ⟨i, look_ch i hi⟩
    have aux : ∀ t : List Nat, (∀ c ∈ t, UrlSafe c) → ∃ l, decodeBody t = some l ∧ Bytes l := by
      intro t
      induction t using decodeBody.induct with
      | case1 a b c d rest ih =>
        intro h
        obtain ⟨x, hx⟩ := look_safe a (h a (by simp))
        obtain ⟨y, hy⟩ := look_safe b (h b (by simp))
        obtain ⟨z, hz⟩ := look_safe c (h c (by simp))
        obtain ⟨w, hw⟩ := look_safe d (h d (by simp))
        obtain ⟨l, hl, hb⟩ := ih (fun c hc => h c (by simp [hc]))
        simp only [decodeBody, hx, hy, hz, hw, hl, Option.bind_eq_bind, Option.bind_some]
        refine ⟨_, rfl, ?_⟩
        intro q hq
        simp only [List.mem_cons] at hq
        rcases hq with rfl | rfl | rfl | hq
        · omega
        · omega
        · omega
        · exact hb q hq
      | case2 a b c =>
        intro h
        obtain ⟨x, hx⟩ := look_safe a (h a (by simp))
        obtain ⟨y, hy⟩ := look_safe b (h b (by simp))
        obtain ⟨z, hz⟩ := look_safe c (h c (by simp))
        simp only [decodeBody, hx, hy, hz, Option.bind_eq_bind, Option.bind_some]
        refine ⟨_, rfl, ?_⟩
        intro q hq
        simp only [List.mem_cons, List.not_mem_nil, or_false] at hq
        omega
      | case3 a b =>
        intro h
        obtain ⟨x, hx⟩ := look_safe a (h a (by simp))
        obtain ⟨y, hy⟩ := look_safe b (h b (by simp))
        simp only [decodeBody, hx, hy, Option.bind_eq_bind, Option.bind_some]
        refine ⟨_, rfl, ?_⟩
        intro q hq
        simp only [List.mem_cons, List.not_mem_nil, or_false] at hq
        omega
      | case4 => intro _; exact ⟨[], rfl, by simp [Bytes]⟩
      | case5 => intro _; exact ⟨[], rfl, by simp [Bytes]⟩
    exact aux t h

/-- C11: the encoder's image, characterised: on texts made of whole groups of four alphabet characters the decoder is
also a right inverse, so every such text is the encoding of exactly one byte string. -/
theorem C11_whole_groups_onto : ∀ {t : List Nat}, (∀ c ∈ t, UrlSafe c) → t.length % 4 = 0 →
    ∃ l, decode t = some l ∧ encode l = t := by
  intro t h hm
  rw [decode_eq_body (by omega)]
  induction t using decodeBody.induct with
  | case1 a b c d rest ih =>
    obtain ⟨x, hx, rfl⟩ := safe_ch (h a (by simp))
    obtain ⟨y, hy, rfl⟩ := safe_ch (h b (by simp))
    obtain ⟨z, hz, rfl⟩ := safe_ch (h c (by simp))
    obtain ⟨w, hw, rfl⟩ := safe_ch (h d (by simp))
    obtain ⟨l, hl, he⟩ := ih (fun c hc => h c (by simp [hc])) (by simp at hm; omega)
    simp only [decodeBody, look_ch _ hx, look_ch _ hy, look_ch _ hz, look_ch _ hw, hl, Option.bind_eq_bind, Option.bind_some]
    refine ⟨_, rfl, ?_⟩
    rw [d0 hx hy, d1 hy hz, d2 hz hw, encode, m252 _ (by omega), e1 (by omega) (by omega), e2 (by omega) (by omega),
      m63 _ (by omega), he]
    rw [show (4 * x + y / 16) / 4 = x by omega, show 16 * ((4 * x + y / 16) % 4) + (16 * (y % 16) + z / 4) / 16 = y by omega,
      show 4 * ((16 * (y % 16) + z / 4) % 16) + (64 * (z % 4) + w) / 64 = z by omega,
      show (64 * (z % 4) + w) % 64 = w by omega]
  | case2 a b c => simp at hm
  | case3 a b => simp at hm
  | case4 => simp at hm
  | case5 => exact ⟨[], rfl, rfl⟩

/-- Hypotheses are met by a concrete string with a two-byte tail containing the extreme bytes. -/
example : Bytes [255, 0, 128, 17, 254] ∧ encode [255, 0, 128, 17, 254] = "_wCAEf4".toList.map Char.toNat ∧
    decode ("_wCAEf4".toList.map Char.toNat) = some [255, 0, 128, 17, 254] := by
  refine ⟨by unfold Bytes; decide, by decide +kernel, by decide +kernel⟩

/-- C11, a limit of the decoder: characters outside the alphabet but inside the table (here `'.'`) are not rejected. -/
theorem C11_decoder_accepts_foreign_counterexample :
    decode ("..AA".toList.map Char.toNat) = some [0, 0, 0] ∧ ¬ UrlSafe '.'.toNat := by decide +kernel

end Verif.Base64
