import Verif.Json.Model

/-!
# JSON texts, writing and parsing (C87, C88)
-/

namespace Verif.Json

variable {D : Type}

/-! ## Specification: the grammar of JSON (RFC 8259) -/

/-- Blank space between tokens. -/
def AllWs (w : List Char) : Prop := ∀ c ∈ w, c = ' ' ∨ c = '\t' ∨ c = '\n' ∨ c = '\r'

/-- The UTF-8 form of a code point of the first plane. -/
def utf8 (n : Nat) : List Char :=
  if n < 0x80 then [Char.ofNat n]
  else if n < 0x800 then [Char.ofNat (192 + n / 64), Char.ofNat (128 + n % 64)]
  else [Char.ofNat (224 + n / 4096), Char.ofNat (128 + n / 64 % 64), Char.ofNat (128 + n % 64)]

/-- Upper and lower case hexadecimal digits with their values. -/
def hexDigits : List (Char × Nat) :=
  [('0', 0), ('1', 1), ('2', 2), ('3', 3), ('4', 4), ('5', 5), ('6', 6), ('7', 7), ('8', 8), ('9', 9), ('a', 10), ('b', 11), ('c', 12), ('d', 13), ('e', 14), ('f', 15),
    ('A', 10), ('B', 11), ('C', 12), ('D', 13), ('E', 14), ('F', 15)]

/-- The escapes of one character. -/
def escapes : List (Char × Char) := [('"', '"'), ('\\', '\\'), ('/', '/'), ('b', '\x08'), ('f', '\x0c'), ('n', '\n'), ('r', '\r'), ('t', '\t')]

/-- `t` is the inside of a string literal that denotes the bytes `s`. The grammar proper (`strict`) allows no control characters. -/
inductive StrText (strict : Bool) : List Char → List Char → Prop where
  | nil : StrText strict [] []
  | plain {c : Char} {s t : List Char} (h1 : c ≠ '"') (h2 : c ≠ '\\') (h3 : strict = true → ' ' ≤ c) : StrText strict s t → StrText strict (c :: s) (c :: t)
  | esc {e c : Char} {s t : List Char} (h : (e, c) ∈ escapes) : StrText strict s t → StrText strict (c :: s) ('\\' :: e :: t)
  | uni {a b c d : Char} {x y z w : Nat} {s t : List Char} (ha : (a, x) ∈ hexDigits) (hb : (b, y) ∈ hexDigits) (hc : (c, z) ∈ hexDigits) (hd : (d, w) ∈ hexDigits)
      -- not one half of a surrogate pair
      (hs : ¬(0xD800 ≤ 4096 * x + 256 * y + 16 * z + w ∧ 4096 * x + 256 * y + 16 * z + w < 0xE000)) : StrText strict s t →
      StrText strict (utf8 (4096 * x + 256 * y + 16 * z + w) ++ s) ('\\' :: 'u' :: a :: b :: c :: d :: t)

/-- The value of a list of decimal digits. -/
def decVal (ds : List Char) : Nat := ds.foldl (fun acc c => 10 * acc + (c.toNat - 48)) 0

/-- The digits of a number without leading zeros. -/
def Digits (ds : List Char) : Prop := ds ≠ [] ∧ (∀ c ∈ ds, '0' ≤ c ∧ c ≤ '9') ∧ (ds.head? = some '0' → ds = ['0'])

/-- An integer. -/
inductive IntText : Int → List Char → Prop where
  | pos {ds : List Char} : Digits ds → IntText (decVal ds) ds
  | neg {ds : List Char} : Digits ds → IntText (-(decVal ds : Int)) ('-' :: ds)

/-- The characters of a number with a fraction; covers the numbers of the grammar. -/
def FracText (t : List Char) : Prop := (∃ c r, t = c :: r ∧ (c = '-' ∨ '0' ≤ c ∧ c ≤ '9')) ∧ '.' ∈ t ∧ ∀ c ∈ t, ('0' ≤ c ∧ c ≤ '9') ∨ c = '.' ∨ c = '-' ∨ c = '+' ∨ c = 'e' ∨ c = 'E'

/-- `true`, `false` and `null`. -/
def Value.Literal : Value D → Prop
  | .bool _ => True
  | .null => True
  | _ => False

mutual
/-- `t` is a text that denotes the value: the grammar, restricted in three points, all of them shown to matter below. After the words `true`, `false` and `null` in an array or an object comes no
blank space; a number with an exponent has a point; names contain no zero byte. -/
inductive Text (strict : Bool) (strtod : List Char → D) : Value D → List Char → Prop where
  | nul : Text strict strtod .null "null".toList
  | tru : Text strict strtod (.bool true) "true".toList
  | fls : Text strict strtod (.bool false) "false".toList
  | str {s t : List Char} : StrText strict s t → Text strict strtod (.str s) ('"' :: (t ++ ['"']))
  | int {i : Int} {t : List Char} : IntText i t → -2 ^ 63 ≤ i → i < 2 ^ 63 → Text strict strtod (.int i) t
  | dbl {t : List Char} : FracText t → Text strict strtod (.dbl (strtod t)) t
  | arr0 {w : List Char} : AllWs w → Text strict strtod (.arr []) ('[' :: (w ++ [']']))
  | arr {l : List (Value D)} {t : List Char} : Items strict strtod l t → Text strict strtod (.arr l) ('[' :: (t ++ [']']))
  | obj0 {w : List Char} : AllWs w → Text strict strtod (.obj []) ('{' :: (w ++ ['}']))
  | obj {l : List (List Char × Value D)} {t : List Char} : Members strict strtod l t → Text strict strtod (.obj l) ('{' :: (t ++ ['}']))

/-- The items of an array. -/
inductive Items (strict : Bool) (strtod : List Char → D) : List (Value D) → List Char → Prop where
  | one {v : Value D} {w1 t w2 : List Char} : AllWs w1 → Text strict strtod v t → AllWs w2 → (v.Literal → w2 = []) → Items strict strtod [v] (w1 ++ (t ++ w2))
  | cons {v : Value D} {l : List (Value D)} {w1 t w2 u : List Char} : AllWs w1 → Text strict strtod v t → AllWs w2 → (v.Literal → w2 = []) → Items strict strtod l u →
      Items strict strtod (v :: l) (w1 ++ (t ++ (w2 ++ ',' :: u)))

/-- The members of an object. -/
inductive Members (strict : Bool) (strtod : List Char → D) : List (List Char × Value D) → List Char → Prop where
  | one {k : List Char} {v : Value D} {w1 kt w2 w3 t w4 : List Char} : AllWs w1 → StrText strict k kt → '\x00' ∉ k → AllWs w2 → AllWs w3 → Text strict strtod v t → AllWs w4 →
      (v.Literal → w4 = []) → Members strict strtod [(k, v)] (w1 ++ '"' :: (kt ++ '"' :: (w2 ++ ':' :: (w3 ++ (t ++ w4)))))
  | cons {k : List Char} {v : Value D} {l : List (List Char × Value D)} {w1 kt w2 w3 t w4 u : List Char} : AllWs w1 → StrText strict k kt → '\x00' ∉ k → AllWs w2 → AllWs w3 →
      Text strict strtod v t → AllWs w4 → (v.Literal → w4 = []) → Members strict strtod l u →
      Members strict strtod ((k, v) :: l) (w1 ++ '"' :: (kt ++ '"' :: (w2 ++ ':' :: (w3 ++ (t ++ (w4 ++ ',' :: u))))))
end

/-! ## The parser ends -/

theorem dropWhile_length {α : Type} (p : α → Bool) (l : List α) : (l.dropWhile p).length ≤ l.length := by
  induction l with
  | nil => exact Nat.le_refl _
  | cons a l ih =>
    rw [List.dropWhile_cons]
    split
    · simp only [List.length_cons]; omega
    · exact Nat.le_refl _

theorem eatWs_length (s : List Char) : (eatWs s).length ≤ s.length := dropWhile_length _ _

theorem eatComma_length (s : List Char) : (eatComma s).length ≤ s.length := by
  cases s with
  | nil => exact Nat.le_refl _
  | cons c s =>
    rw [eatComma]
    split
    · simp only [List.length_cons]; omega
    · exact Nat.le_refl _

theorem readStr_length : ∀ (s : List Char), (readStr s).2.length ≤ s.length
  | [] => by rw [readStr]; exact Nat.le_refl _
  | c :: s => by
    rw [readStr]
    split
    · exact Nat.le_refl _
    · have h1 := eatChar_length c s
      have h2 := readStr_length (eatChar (c :: s)).2
      simp only [List.length_cons]
      omega
termination_by s => s.length
decreasing_by
  have := eatChar_length c s
  simp only [List.length_cons]
  omega

theorem parseStr_length (s : List Char) : (parseStr s).2.length ≤ s.length := by
  cases s with
  | nil => exact Nat.le_refl _
  | cons c s =>
    rw [parseStr]
    split
    · exact Nat.le_refl _
    · split
      · have := dropWhile_length (fun c => !isStop c) s
        simp only [List.length_cons]
        omega
      · have := readStr_length s
        simp only [List.length_drop, List.length_cons]
        omega

/-- The first character of an unquoted value is read. -/
theorem parseStr_lt {c : Char} {s : List Char} (h : isStop c = false) : (parseStr (c :: s)).2.length < (c :: s).length := by
  rw [parseStr, if_neg (by simp [h])]
  split
  · have := dropWhile_length (fun c => !isStop c) s
    simp only [List.length_cons]
    omega
  · have := readStr_length s
    simp only [List.length_drop, List.length_cons]
    omega

/-- What an array does after an item leaves less than it had, if the item has read something or stands before a comma or a brace. -/
theorem skip_lt {c : Char} {s r : List Char} (hc : c ≠ ']') (h : r.length < (c :: s).length ∨ isStop c = true ∧ r = c :: s) :
    (eatWs (eatComma (r.dropWhile fun c => c != ',' && c != ']'))).length < (c :: s).length := by
  have h2 := eatWs_length (eatComma (r.dropWhile fun c => c != ',' && c != ']'))
  have h3 := eatComma_length (r.dropWhile fun c => c != ',' && c != ']')
  have h4 := dropWhile_length (fun c => c != ',' && c != ']') r
  rcases h with h | ⟨h, rfl⟩
  · omega
  · simp only [isStop, Bool.or_eq_true, beq_iff_eq] at h
    rcases h with (rfl | rfl) | rfl
    · have e : (',' :: s).dropWhile (fun c => c != ',' && c != ']') = ',' :: s := rfl
      rw [e] at h2 ⊢
      rw [eatComma, if_pos rfl] at h2 ⊢
      rw [List.length_cons]; omega
    · have e : ('}' :: s).dropWhile (fun c => c != ',' && c != ']') = s.dropWhile (fun c => c != ',' && c != ']') := rfl
      have h5 := dropWhile_length (fun c => c != ',' && c != ']') s
      rw [e] at h2 h3 ⊢
      rw [List.length_cons]; omega
    · exact absurd rfl hc

mutual
theorem parse_ends (strtod : List Char → D) : ∀ (n : Nat) (s : List Char), 2 * s.length + 1 ≤ n → ∃ v r, parse strtod n s = some (v, r) ∧ r.length ≤ s.length ∧
      ∀ c q, s = c :: q → r.length < s.length ∨ isStop c = true ∧ r = c :: q
  | 0, s, h => by omega
  | n + 1, s, h => by
    rw [parse]
    have hl := eatWs_length s
    split
    · rename_i e
      refine ⟨_, _, rfl, by simp [parseStr], fun c q hs => .inl (by rw [hs]; simp [parseStr])⟩
    · rename_i c s' e
      rw [e, List.length_cons] at hl
      split
      · have h1 := eatWs_length s'
        obtain ⟨l, r, e2, h2⟩ := fields_ends strtod n (eatWs s') (by omega)
        exact ⟨_, _, by rw [e2]; rfl, by dsimp only; omega, fun _ _ _ => .inl (by dsimp only; omega)⟩
      · split
        · have h1 := eatWs_length s'
          obtain ⟨l, r, e2, h2⟩ := elems_ends strtod n (eatWs s') (by omega)
          exact ⟨_, _, by rw [e2]; rfl, by dsimp only; omega, fun _ _ _ => .inl (by dsimp only; omega)⟩
        · have h1 := parseStr_length (c :: s')
          have h3 : ∀ c' q, s = c' :: q → (parseStr (c :: s')).2.length < s.length ∨ isStop c' = true ∧ (parseStr (c :: s')).2 = c' :: q := by
            intro c' q hs
            by_cases hst : isStop c = true
            · by_cases hsp : isSpace c' = true
              · left
                rw [hs, eatWs, List.dropWhile_cons, if_pos hsp] at e
                have := dropWhile_length isSpace q
                rw [e] at this
                rw [hs]
                simp only [List.length_cons] at *
                omega
              · right
                rw [hs, eatWs, List.dropWhile_cons, if_neg hsp] at e
                obtain ⟨rfl, rfl⟩ := List.cons.inj e
                exact ⟨hst, by rw [parseStr, if_pos hst]⟩
            · left
              have := parseStr_lt (s := s') (Bool.eq_false_iff.2 hst)
              rw [List.length_cons] at this
              omega
          rw [List.length_cons] at h1
          dsimp only
          split
          · exact ⟨_, _, rfl, by omega, h3⟩
          · split
            · exact ⟨_, _, rfl, by omega, h3⟩
            · exact ⟨_, _, rfl, by omega, h3⟩

theorem elems_ends (strtod : List Char → D) : ∀ (n : Nat) (s : List Char), 2 * s.length + 2 ≤ n → ∃ l r, elems strtod n s = some (l, r) ∧ r.length ≤ s.length
  | 0, s, h => by omega
  | n + 1, [], h => ⟨[], [], by rw [elems], Nat.le_refl _⟩
  | n + 1, c :: s, h => by
    rw [elems]
    split
    · exact ⟨_, _, rfl, by simp only [List.length_cons]; omega⟩
    · rename_i hc
      obtain ⟨v, r, e, h1, hr⟩ := parse_ends strtod n (c :: s) (by omega)
      rw [e]
      dsimp only
      have h5 : (eatWs (eatComma (r.dropWhile fun c => c != ',' && c != ']'))).length < (c :: s).length := skip_lt hc (hr c s rfl)
      obtain ⟨l, q, e2, h6⟩ := elems_ends strtod n _ (show 2 * (eatWs (eatComma (r.dropWhile fun c => c != ',' && c != ']'))).length + 2 ≤ n by omega)
      rw [e2]
      exact ⟨_, _, rfl, by omega⟩

theorem fields_ends (strtod : List Char → D) : ∀ (n : Nat) (s : List Char), 2 * s.length + 2 ≤ n → ∃ l r, fields strtod n s = some (l, r) ∧ r.length ≤ s.length
  | 0, s, h => by omega
  | n + 1, [], h => ⟨[], [], by rw [fields], Nat.le_refl _⟩
  | n + 1, c :: s, h => by
    rw [fields]
    rw [List.length_cons] at *
    split
    · exact ⟨_, _, rfl, by omega⟩
    · split
      · obtain ⟨l, r, e, h1⟩ := fields_ends strtod n s (by omega)
        exact ⟨l, r, e, by omega⟩
      · dsimp only
        have h1 := readStr_length s
        have h2 := eatWs_length ((readStr s).2.drop 1)
        rw [List.length_drop] at h2
        split
        · obtain ⟨l, r, e, h1⟩ := fields_ends strtod n [] (by simp only [List.length_nil]; omega)
          exact ⟨l, r, e, by simp only [List.length_nil] at h1; omega⟩
        · rename_i c' s' e'
          rw [e', List.length_cons] at h2
          split
          · obtain ⟨l, r, e, h1⟩ := fields_ends strtod n s' (by omega)
            exact ⟨l, r, e, by omega⟩
          · have h3 := eatWs_length s'
            obtain ⟨v, r, e, h4, -⟩ := parse_ends strtod n (eatWs s') (by omega)
            rw [e]
            dsimp only
            have h5 := eatWs_length (eatComma (r.dropWhile fun c => c != ',' && c != '}'))
            have h6 := eatComma_length (r.dropWhile fun c => c != ',' && c != '}')
            have h7 := dropWhile_length (fun c => c != ',' && c != '}') r
            obtain ⟨l, q, e2, h8⟩ := fields_ends strtod n _ (show 2 * (eatWs (eatComma (r.dropWhile fun c => c != ',' && c != '}'))).length + 2 ≤ n by omega)
            rw [e2]
            exact ⟨_, _, rfl, by omega⟩
end

/-- **C88**: parsing ends for every text, well-formed or not. -/
theorem C88_terminates (strtod : List Char → D) (s : List Char) : ∃ v r, parseJSON strtod s = some (v, r) ∧ r.length ≤ s.length := by
  obtain ⟨v, r, e, h, -⟩ := parse_ends strtod (2 * s.length + 1) s (Nat.le_refl _)
  exact ⟨v, r, e, h⟩

/-! ## Strings -/

theorem AllWs.space {w : List Char} (h : AllWs w) {c : Char} (hc : c ∈ w) : isSpace c = true := by
  rcases h c hc with rfl | rfl | rfl | rfl <;> rfl

theorem AllWs.stop {w : List Char} (h : AllWs w) {c : Char} (hc : c ∈ w) : isStop c = false ∧ c ≠ '\x00' ∧ c ≠ '.' ∧ isDigit c = false := by
  rcases h c hc with rfl | rfl | rfl | rfl <;> decide

theorem eatWs_append {w : List Char} (h : AllWs w) (s : List Char) : eatWs (w ++ s) = eatWs s := by
  induction w with
  | nil => rfl
  | cons c w ih =>
    rw [List.cons_append, eatWs, List.dropWhile_cons, if_pos (h.space (List.mem_cons_self ..))]
    exact ih fun c hc => h c (List.mem_cons_of_mem _ hc)

theorem eatWs_cons {c : Char} (h : isSpace c = false) (s : List Char) : eatWs (c :: s) = c :: s := by
  rw [eatWs, List.dropWhile_cons, if_neg (by simp [h])]

theorem hex_facts : ∀ p ∈ hexDigits, hexVal p.1 = some p.2 ∧ isSpace p.1 = false ∧ p.1 ≠ '-' ∧ p.1 ≠ '+' ∧ p.1 ≠ 'x' ∧ p.1 ≠ 'X' ∧ p.2 < 16 := by decide

theorem strtoul16_hex {a b c d : Char} {x y z w : Nat} (ha : (a, x) ∈ hexDigits) (hb : (b, y) ∈ hexDigits) (hc : (c, z) ∈ hexDigits) (hd : (d, w) ∈ hexDigits) :
    strtoul16 [a, b, c, d] = ((4096 * x + 256 * y + 16 * z + w : Nat) : Int) := by
  obtain ⟨a1, a2, a3, a4, a5, a6, a7⟩ := hex_facts _ ha
  obtain ⟨b1, b2, b3, b4, b5, b6, b7⟩ := hex_facts _ hb
  obtain ⟨c1, -⟩ := hex_facts _ hc
  obtain ⟨d1, -⟩ := hex_facts _ hd
  dsimp only at *
  have e1 : [a, b, c, d].dropWhile isSpace = [a, b, c, d] := by rw [List.dropWhile_cons, if_neg (by simp [a2])]
  have e2 : dropHexPrefix [a, b, c, d] = [a, b, c, d] := by rw [dropHexPrefix, if_neg fun h => h.2.1.elim b5 b6]
  rw [strtoul16, e1, splitSign, if_neg a3, if_neg a4]
  dsimp only
  rw [e2]
  simp only [hexNum, a1, b1, c1, d1, Bool.false_eq_true, if_false]
  congr 1
  omega

theorem byte_lt {n : Nat} (h : n < 256) : byte n = Char.ofNat n := by rw [byte, Nat.mod_eq_of_lt h]

theorem or_add {a b k : Nat} (h : b < 2 ^ k) : a * 2 ^ k ||| b = a * 2 ^ k + b := by
  rw [← Nat.shiftLeft_eq, Nat.shiftLeft_add_eq_or_of_lt h]

theorem outputUnicode_utf8 {n : Nat} (h : n < 0x10000) : outputUnicode (n : Int) = utf8 n := by
  rw [outputUnicode, utf8]
  by_cases h1 : n < 0x80
  · rw [if_pos (by omega), if_pos h1]
    rw [show ((n : Int) % 256).toNat = n by omega, byte_lt (by omega)]
  · rw [if_neg (by omega), if_neg h1]
    dsimp only
    rw [Int.toNat_natCast]
    have m1 : n &&& 0x3F = n % 64 := Nat.and_two_pow_sub_one_eq_mod n 6
    have m2 : (n &&& 0x0FC0) >>> 6 = n / 64 % 64 := by
      rw [Nat.shiftRight_and_distrib, show 0x0FC0 >>> 6 = 2 ^ 6 - 1 from rfl, Nat.and_two_pow_sub_one_eq_mod, Nat.shiftRight_eq_div_pow]
    have o1 : ∀ b, b < 64 → 0x80 ||| b = 128 + b := fun b hb => or_add (a := 2) (k := 6) hb
    by_cases h2 : n < 0x800
    · rw [if_pos h2, if_pos h2, m1, o1 _ (by omega), Nat.shiftRight_eq_div_pow, show (0xC0 ||| n / 2 ^ 6) = 192 + n / 64 from or_add (a := 3) (k := 6) (by omega),
        byte_lt (by omega), byte_lt (by omega)]
    · rw [if_neg h2, if_neg h2, if_pos h, m1, m2, o1 _ (by omega), o1 _ (by omega), Nat.shiftRight_eq_div_pow,
        show (0xE0 ||| n / 2 ^ 12) = 224 + n / 4096 from or_add (a := 14) (k := 4) (by omega), byte_lt (by omega), byte_lt (by omega), byte_lt (by omega)]

theorem eatChar_esc {e c : Char} (h : (e, c) ∈ escapes) (s : List Char) : eatChar ('\\' :: e :: s) = ([c], s) := by
  simp only [escapes, List.mem_cons, Prod.mk.injEq, List.not_mem_nil, or_false] at h
  rcases h with ⟨rfl, rfl⟩ | ⟨rfl, rfl⟩ | ⟨rfl, rfl⟩ | ⟨rfl, rfl⟩ | ⟨rfl, rfl⟩ | ⟨rfl, rfl⟩ | ⟨rfl, rfl⟩ | ⟨rfl, rfl⟩ <;> rfl

theorem readStr_text {strict : Bool} {s t : List Char} (h : StrText strict s t) (r : List Char) : readStr (t ++ '"' :: r) = (s, '"' :: r) := by
  induction h with
  | nil => rw [List.nil_append, readStr, if_pos rfl]
  | plain h1 h2 _ _ ih =>
    rw [List.cons_append, readStr, if_neg h1]
    simp only [eatChar, getc, ne_eq, h2, not_false_eq_true, if_true, List.drop_one, List.tail_cons, ih, List.singleton_append]
  | esc h _ ih =>
    rw [List.cons_append, List.cons_append, readStr, if_neg (by decide)]
    simp only [eatChar_esc h, ih, List.singleton_append]
  | @uni a b c d x y z w s t ha hb hc hd hs _ ih =>
    rw [List.cons_append, List.cons_append, List.cons_append, List.cons_append, List.cons_append, List.cons_append, readStr, if_neg (by decide)]
    have e : eatChar ('\\' :: 'u' :: a :: b :: c :: d :: (t ++ '"' :: r)) = (utf8 (4096 * x + 256 * y + 16 * z + w), t ++ '"' :: r) := by
      have l1 := (hex_facts _ ha).2.2.2.2.2.2
      have l2 := (hex_facts _ hb).2.2.2.2.2.2
      have l3 := (hex_facts _ hc).2.2.2.2.2.2
      have l4 := (hex_facts _ hd).2.2.2.2.2.2
      dsimp only at l1 l2 l3 l4
      rw [← outputUnicode_utf8 (by omega), ← strtoul16_hex ha hb hc hd]
      rfl
    simp only [e, ih]

/-! ## Unquoted values -/

/-- The rest begins with a character that ends an unquoted value. -/
def Stops (r : List Char) : Prop := r = [] ∨ ∃ c q, r = c :: q ∧ isStop c = true

theorem take_stop {x r : List Char} (hx : ∀ c ∈ x, isStop c = false) (hr : Stops r) : (x ++ r).takeWhile (!isStop ·) = x ∧ (x ++ r).dropWhile (!isStop ·) = r := by
  induction x with
  | nil =>
    rcases hr with rfl | ⟨c, q, rfl, h⟩
    · exact ⟨rfl, rfl⟩
    · simp [h]
  | cons a x ih =>
    have ha := hx a (List.mem_cons_self ..)
    obtain ⟨h1, h2⟩ := ih fun c hc => hx c (List.mem_cons_of_mem _ hc)
    simp [ha, h1, h2]

theorem parseStr_bare {c : Char} {x r : List Char} (hq : c ≠ '"') (hx : ∀ a ∈ c :: x, isStop a = false) (hr : Stops r) : parseStr (c :: (x ++ r)) = (c :: x, r) := by
  obtain ⟨h1, h2⟩ := take_stop (fun a ha => hx a (List.mem_cons_of_mem _ ha)) hr
  rw [parseStr, if_neg (by simp [hx c (List.mem_cons_self ..)]), if_pos hq, h1, h2]

theorem cstr_eq {s : List Char} (h : '\x00' ∉ s) : cstr s = s := by
  rw [cstr]
  induction s with
  | nil => rfl
  | cons c s ih =>
    rw [List.takeWhile_cons, if_pos, ih fun hc => h (List.mem_cons_of_mem _ hc)]
    simp only [bne_iff_ne, ne_eq]
    rintro rfl
    exact h (List.mem_cons_self ..)

theorem digit_facts {c : Char} (h : '0' ≤ c ∧ c ≤ '9') :
    isDigit c = true ∧ isStop c = false ∧ isSpace c = false ∧ c ≠ '\x00' ∧ c ≠ '.' ∧ c ≠ '"' ∧ c ≠ '{' ∧ c ≠ '[' ∧ c ≠ '-' ∧ c ≠ '+' ∧ c ≠ ']' ∧ c ≠ '}' := by
  have ne : ∀ x : Char, ¬('0' ≤ x ∧ x ≤ '9') → c ≠ x := fun x hx e => hx (e ▸ h)
  have n1 := ne ',' (by decide)
  have n2 := ne '}' (by decide)
  have n3 := ne ']' (by decide)
  have n4 := ne ' ' (by decide)
  have n5 := ne '\t' (by decide)
  have n6 := ne '\n' (by decide)
  have n7 := ne '\x0b' (by decide)
  have n8 := ne '\x0c' (by decide)
  have n9 := ne '\r' (by decide)
  exact ⟨by simp [isDigit, h], by simp [isStop, n1, n2, n3], by simp [isSpace, n4, n5, n6, n7, n8, n9], ne _ (by decide), ne _ (by decide), ne _ (by decide), ne _ (by decide), ne _ (by decide),
    ne _ (by decide), ne _ (by decide), n3, n2⟩

theorem decNum_foldl (ds : List Char) (hd : ∀ c ∈ ds, '0' ≤ c ∧ c ≤ '9') {w : List Char} (hw : AllWs w) (acc : Nat) :
    decNum acc (ds ++ w) = ds.foldl (fun acc c => 10 * acc + (c.toNat - 48)) acc := by
  induction ds generalizing acc with
  | nil =>
    cases w with
    | nil => rfl
    | cons a w => rw [List.nil_append, decNum, if_neg (by simp [(hw.stop (List.mem_cons_self ..)).2.2.2])]; rfl
  | cons a ds ih =>
    rw [List.cons_append, decNum, if_pos (digit_facts (hd a (List.mem_cons_self ..))).1, ih fun c hc => hd c (List.mem_cons_of_mem _ hc)]
    rfl

theorem strtoll_int {i : Int} {t w : List Char} (h : IntText i t) (h1 : -2 ^ 63 ≤ i) (h2 : i < 2 ^ 63) (hw : AllWs w) : strtoll (t ++ w) = i := by
  cases h with
  | pos hd =>
    obtain ⟨hne, hdig, -⟩ := hd
    have e := decNum_foldl t hdig hw 0
    rcases hds : t with _ | ⟨c, ds'⟩
    · exact absurd hds hne
    · have f := digit_facts (hdig c (by rw [hds]; exact List.mem_cons_self ..))
      rw [hds] at e h1 h2
      have e1 : (c :: ds' ++ w).dropWhile isSpace = c :: (ds' ++ w) := by
        rw [List.cons_append, List.dropWhile_cons, if_neg (by simp [f.2.2.1])]
      rw [strtoll, e1, splitSign, if_neg f.2.2.2.2.2.2.2.2.1, if_neg f.2.2.2.2.2.2.2.2.2.1, ← List.cons_append]
      dsimp only
      rw [e, if_neg (by decide)]
      change max _ (min ((decVal (c :: ds') : Nat) : Int) _) = _
      omega
  | @neg ds hd =>
    obtain ⟨hne, hdig, -⟩ := hd
    have e := decNum_foldl ds hdig hw 0
    have e1 : ('-' :: ds ++ w).dropWhile isSpace = '-' :: (ds ++ w) := rfl
    rw [strtoll, e1, splitSign, if_pos rfl]
    dsimp only
    rw [e, if_pos rfl]
    change max _ (min (-((decVal ds : Nat) : Int)) _) = _
    omega

/-- What the first character of a text can be. -/
theorem text_head {strict : Bool} {strtod : List Char → D} {v : Value D} {t : List Char} (h : Text strict strtod v t) :
    ∃ c q, t = c :: q ∧ isSpace c = false ∧ c ≠ ']' ∧ c ≠ '}' := by
  cases h with
  | nul => exact ⟨_, _, rfl, by decide⟩
  | tru => exact ⟨_, _, rfl, by decide⟩
  | fls => exact ⟨_, _, rfl, by decide⟩
  | str h => exact ⟨_, _, rfl, by decide⟩
  | int h =>
    cases h with
    | pos hd =>
      rcases t with _ | ⟨c, q⟩
      · exact absurd rfl hd.1
      · have := digit_facts (hd.2.1 c (List.mem_cons_self ..))
        exact ⟨c, q, rfl, this.2.2.1, this.2.2.2.2.2.2.2.2.2.2⟩
    | neg hd => exact ⟨_, _, rfl, by decide⟩
  | dbl h =>
    obtain ⟨⟨c, q, rfl, hc⟩, -⟩ := h
    refine ⟨c, q, rfl, ?_⟩
    rcases hc with rfl | hc
    · decide
    · have := digit_facts hc
      exact ⟨this.2.2.1, this.2.2.2.2.2.2.2.2.2.2⟩
  | arr0 => exact ⟨_, _, rfl, by decide⟩
  | arr => exact ⟨_, _, rfl, by decide⟩
  | obj0 => exact ⟨_, _, rfl, by decide⟩
  | obj => exact ⟨_, _, rfl, by decide⟩

/-- The parser on a value that is neither quoted nor an array or an object. -/
theorem parse_bare {strtod : List Char → D} {n : Nat} {c : Char} {x r : List Char} {p : Value D × List Char} (hs : isSpace c = false) (h1 : c ≠ '{') (h2 : c ≠ '[') (h3 : c ≠ '"')
    (hx : ∀ a ∈ c :: x, isStop a = false) (hr : Stops r) (h : parse strtod n (c :: (x ++ r)) = some p) :
    p = (if numStart c then number strtod (c :: x) else word (c :: x), r) := by
  cases n with
  | zero => simp [parse] at h
  | succ n =>
    rw [parse, eatWs_cons hs] at h
    dsimp only at h
    rw [if_neg h1, if_neg h2, if_neg h3, parseStr_bare h3 hx hr] at h
    dsimp only at h
    split at h
    · rename_i hn; rw [if_pos hn]; exact (Option.some.inj h).symm
    · rename_i hn; rw [if_neg hn]; exact (Option.some.inj h).symm

theorem skip_to {p : Char → Bool} {w r : List Char} {q : List Char} (hw : ∀ c ∈ w, p c = true) (hr : ∃ c x, r = c :: x ∧ p c = false) (hq : q = w ++ r ∨ q = r) : q.dropWhile p = r := by
  obtain ⟨c, x, rfl, hc⟩ := hr
  have e : (c :: x).dropWhile p = c :: x := by rw [List.dropWhile_cons, if_neg (by simp [hc])]
  rcases hq with rfl | rfl
  · rw [List.dropWhile_append_of_pos hw, e]
  · exact e

theorem notStop_space {w : List Char} (h : AllWs w) : (∀ c ∈ w, (c != ',' && c != ']') = true) ∧ ∀ c ∈ w, (c != ',' && c != '}') = true := by
  constructor <;> intro c hc <;> rcases h c hc with rfl | rfl | rfl | rfl <;> decide

mutual
theorem text_ok {strict : Bool} {strtod : List Char → D} (htrail : ∀ t w, AllWs w → strtod (t ++ w) = strtod t) : ∀ {v : Value D} {t : List Char}, Text strict strtod v t →
    ∀ (n : Nat) (w r : List Char) (p : Value D × List Char), AllWs w → (v.Literal → w = []) → Stops r → parse strtod n (t ++ (w ++ r)) = some p → p.1 = v ∧ (p.2 = w ++ r ∨ p.2 = r)
  | _, _, .nul, n, w, r, p, hw, hl, hr, h => by
    obtain rfl := hl trivial
    have := parse_bare (c := 'n') (x := ['u', 'l', 'l']) (by decide) (by decide) (by decide) (by decide) (by decide) hr h
    rw [this]
    exact ⟨rfl, .inl rfl⟩
  | _, _, .tru, n, w, r, p, hw, hl, hr, h => by
    obtain rfl := hl trivial
    have := parse_bare (c := 't') (x := ['r', 'u', 'e']) (by decide) (by decide) (by decide) (by decide) (by decide) hr h
    rw [this]
    exact ⟨rfl, .inl rfl⟩
  | _, _, .fls, n, w, r, p, hw, hl, hr, h => by
    obtain rfl := hl trivial
    have := parse_bare (c := 'f') (x := ['a', 'l', 's', 'e']) (by decide) (by decide) (by decide) (by decide) (by decide) hr h
    rw [this]
    exact ⟨rfl, .inl rfl⟩
  | _, _, .str (s := s) (t := t) hs, n, w, r, p, hw, hl, hr, h => by
    cases n with
    | zero => simp [parse] at h
    | succ n =>
      rw [List.cons_append, parse, eatWs_cons (by decide)] at h
      dsimp only at h
      rw [if_neg (by decide), if_neg (by decide), if_pos rfl, List.append_assoc, List.singleton_append, parseStr, if_neg (by decide), if_neg (by decide), readStr_text hs] at h
      rw [← Option.some.inj h]
      exact ⟨rfl, .inl rfl⟩
  | _, _, .int (i := i) (t := t) hi h1 h2, n, w, r, p, hw, hl, hr, h => by
    have hc : ∀ c ∈ t, c = '-' ∨ '0' ≤ c ∧ c ≤ '9' := by
      cases hi with
      | pos hd => exact fun c hc => .inr (hd.2.1 c hc)
      | neg hd => exact fun c hc => (List.mem_cons.1 hc).imp id (hd.2.1 c)
    have hne : t ≠ [] := by
      cases hi with
      | pos hd => exact hd.1
      | neg hd => simp
    rcases t with _ | ⟨c, x⟩
    · exact absurd rfl hne
    · have facts : ∀ a ∈ c :: x, isStop a = false ∧ a ≠ '\x00' ∧ a ≠ '.' := fun a ha => by
        rcases hc a ha with rfl | hd
        · decide
        · have := digit_facts hd; exact ⟨this.2.1, this.2.2.2.1, this.2.2.2.2.1⟩
      have hstart : isSpace c = false ∧ c ≠ '{' ∧ c ≠ '[' ∧ c ≠ '"' ∧ numStart c = true := by
        rcases hc c (List.mem_cons_self ..) with rfl | hd
        · decide
        · have := digit_facts hd
          exact ⟨this.2.2.1, this.2.2.2.2.2.2.1, this.2.2.2.2.2.2.2.1, this.2.2.2.2.2.1, by simp [numStart, this.1]⟩
      have all : ∀ a ∈ c :: (x ++ w), isStop a = false ∧ a ≠ '\x00' ∧ a ≠ '.' := fun a ha => by
        rw [← List.cons_append, List.mem_append] at ha
        rcases ha with ha | ha
        · exact facts a ha
        · have := hw.stop ha; exact ⟨this.1, this.2.1, this.2.2.1⟩
      rw [List.cons_append, ← List.append_assoc] at h
      have := parse_bare hstart.1 hstart.2.1 hstart.2.2.1 hstart.2.2.2.1 (fun a ha => (all a ha).1) hr h
      rw [this, if_pos hstart.2.2.2.2, number, cstr_eq (fun h0 => (all _ h0).2.1 rfl), if_neg (fun h0 => (all _ h0).2.2 rfl), ← List.cons_append, strtoll_int hi h1 h2 hw]
      exact ⟨rfl, .inr rfl⟩
  | _, _, .dbl (t := t) hf, n, w, r, p, hw, hl, hr, h => by
    obtain ⟨⟨c, x, rfl, hc⟩, hdot, hall⟩ := hf
    have facts : ∀ a ∈ c :: x, isStop a = false ∧ a ≠ '\x00' := fun a ha => by
      rcases hall a ha with hd | rfl | rfl | rfl | rfl | rfl
      · have := digit_facts hd; exact ⟨this.2.1, this.2.2.2.1⟩
      all_goals decide
    have hstart : isSpace c = false ∧ c ≠ '{' ∧ c ≠ '[' ∧ c ≠ '"' ∧ numStart c = true := by
      rcases hc with rfl | hd
      · decide
      · have := digit_facts hd
        exact ⟨this.2.2.1, this.2.2.2.2.2.2.1, this.2.2.2.2.2.2.2.1, this.2.2.2.2.2.1, by simp [numStart, this.1]⟩
    have all : ∀ a ∈ c :: (x ++ w), isStop a = false ∧ a ≠ '\x00' := fun a ha => by
      rw [← List.cons_append, List.mem_append] at ha
      rcases ha with ha | ha
      · exact facts a ha
      · have := hw.stop ha; exact ⟨this.1, this.2.1⟩
    rw [List.cons_append, ← List.append_assoc] at h
    have := parse_bare hstart.1 hstart.2.1 hstart.2.2.1 hstart.2.2.2.1 (fun a ha => (all a ha).1) hr h
    rw [this, if_pos hstart.2.2.2.2, number, cstr_eq (fun h0 => (all _ h0).2 rfl), ← List.cons_append, if_pos (List.mem_append_left _ hdot), htrail _ _ hw]
    exact ⟨rfl, .inr rfl⟩
  | _, _, .arr0 (w := w') hw', n, w, r, p, hw, hl, hr, h => by
    cases n with
    | zero => simp [parse] at h
    | succ n =>
      rw [List.cons_append, parse, eatWs_cons (by decide)] at h
      dsimp only at h
      rw [if_neg (by decide), if_pos rfl, List.append_assoc, eatWs_append hw', List.singleton_append, eatWs_cons (by decide)] at h
      cases n with
      | zero => simp [elems] at h
      | succ n =>
        rw [elems, if_pos rfl] at h
        rw [← Option.some.inj h]
        exact ⟨rfl, .inl rfl⟩
  | _, _, .arr (l := l) (t := t) hi, n, w, r, p, hw, hl, hr, h => by
    cases n with
    | zero => simp [parse] at h
    | succ n =>
      rw [List.cons_append, parse, eatWs_cons (by decide)] at h
      dsimp only at h
      rw [if_neg (by decide), if_pos rfl, List.append_assoc, List.singleton_append] at h
      rcases e : elems strtod n (eatWs (t ++ ']' :: (w ++ r))) with _ | q
      · rw [e] at h; cases h
      · have := items_ok htrail hi n (w ++ r) q e
        rw [e] at h
        rw [← Option.some.inj h, this]
        exact ⟨rfl, .inl rfl⟩
  | _, _, .obj0 (w := w') hw', n, w, r, p, hw, hl, hr, h => by
    cases n with
    | zero => simp [parse] at h
    | succ n =>
      rw [List.cons_append, parse, eatWs_cons (by decide)] at h
      dsimp only at h
      rw [if_pos rfl, List.append_assoc, eatWs_append hw', List.singleton_append, eatWs_cons (by decide)] at h
      cases n with
      | zero => simp [fields] at h
      | succ n =>
        rw [fields, if_pos rfl] at h
        rw [← Option.some.inj h]
        exact ⟨rfl, .inl rfl⟩
  | _, _, .obj (l := l) (t := t) hi, n, w, r, p, hw, hl, hr, h => by
    cases n with
    | zero => simp [parse] at h
    | succ n =>
      rw [List.cons_append, parse, eatWs_cons (by decide)] at h
      dsimp only at h
      rw [if_pos rfl, List.append_assoc, List.singleton_append] at h
      rcases e : fields strtod n (eatWs (t ++ '}' :: (w ++ r))) with _ | q
      · rw [e] at h; cases h
      · have := members_ok htrail hi n (w ++ r) q e
        rw [e] at h
        rw [← Option.some.inj h, this]
        exact ⟨rfl, .inl rfl⟩

theorem items_ok {strict : Bool} {strtod : List Char → D} (htrail : ∀ t w, AllWs w → strtod (t ++ w) = strtod t) : ∀ {l : List (Value D)} {t : List Char}, Items strict strtod l t →
    ∀ (n : Nat) (r : List Char) (p : List (Value D) × List Char), elems strtod n (eatWs (t ++ ']' :: r)) = some p → p = (l, r)
  | _, _, .one (v := v) (w1 := w1) (t := t) (w2 := w2) hw1 ht hw2 hl, n, r, p, h => by
    obtain ⟨c, q, e, hs, hc, -⟩ := text_head ht
    cases n with
    | zero => simp [elems] at h
    | succ n =>
      rw [List.append_assoc, eatWs_append hw1, List.append_assoc, e, List.cons_append, eatWs_cons hs, elems, if_neg hc, ← List.cons_append, ← e] at h
      split at h
      · cases h
      · rename_i v' s' e'
        obtain ⟨e1, e2⟩ := text_ok htrail ht n w2 (']' :: r) _ hw2 hl (.inr ⟨_, _, rfl, rfl⟩) e'
        dsimp only at e1 e2
        rw [skip_to (notStop_space hw2).1 ⟨']', r, rfl, by decide⟩ e2, eatComma, if_neg (by decide), eatWs_cons (by decide)] at h
        cases n with
        | zero => simp [elems] at h
        | succ n =>
          rw [elems, if_pos rfl] at h
          rw [← Option.some.inj h, e1]
  | _, _, .cons (v := v) (l := l) (w1 := w1) (t := t) (w2 := w2) (u := u) hw1 ht hw2 hl hu, n, r, p, h => by
    obtain ⟨c, q, e, hs, hc, -⟩ := text_head ht
    cases n with
    | zero => simp [elems] at h
    | succ n =>
      rw [List.append_assoc, eatWs_append hw1, List.append_assoc, List.append_assoc, e, List.cons_append, eatWs_cons hs, elems, if_neg hc, ← List.cons_append, ← e] at h
      split at h
      · cases h
      · rename_i v' s' e'
        obtain ⟨e1, e2⟩ := text_ok htrail ht n w2 (',' :: u ++ ']' :: r) _ hw2 hl (.inr ⟨_, _, rfl, rfl⟩) e'
        dsimp only at e1 e2
        rw [skip_to (notStop_space hw2).1 ⟨',', u ++ ']' :: r, rfl, by decide⟩ e2, eatComma, if_pos rfl] at h
        split at h
        · cases h
        · rename_i l' s'' e''
          have := items_ok htrail hu n r _ e''
          obtain ⟨rfl, rfl⟩ := Prod.mk.inj this
          rw [← Option.some.inj h, e1]

theorem members_ok {strict : Bool} {strtod : List Char → D} (htrail : ∀ t w, AllWs w → strtod (t ++ w) = strtod t) : ∀ {l : List (List Char × Value D)} {t : List Char},
    Members strict strtod l t → ∀ (n : Nat) (r : List Char) (p : List (List Char × Value D) × List Char), fields strtod n (eatWs (t ++ '}' :: r)) = some p → p = (l, r)
  | _, _, .one (k := k) (v := v) (w1 := w1) (kt := kt) (w2 := w2) (w3 := w3) (t := t) (w4 := w4) hw1 hk hk0 hw2 hw3 ht hw4 hl, n, r, p, h => by
    obtain ⟨c, q, e, hs, -, hc⟩ := text_head ht
    cases n with
    | zero => simp [fields] at h
    | succ n =>
      rw [List.append_assoc, eatWs_append hw1, List.cons_append, eatWs_cons (by decide), fields, if_neg (by decide), List.append_assoc, List.cons_append, if_neg (by simp), readStr_text hk] at h
      dsimp only at h
      rw [List.drop_one, List.tail_cons, List.append_assoc, eatWs_append hw2, List.cons_append, eatWs_cons (by decide)] at h
      dsimp only at h
      rw [if_neg (by decide), List.append_assoc, eatWs_append hw3, List.append_assoc, e, List.cons_append, eatWs_cons hs, ← List.cons_append, ← e] at h
      split at h
      · cases h
      · rename_i v' s' e'
        obtain ⟨e1, e2⟩ := text_ok htrail ht n w4 ('}' :: r) _ hw4 hl (.inr ⟨_, _, rfl, rfl⟩) e'
        dsimp only at e1 e2
        rw [skip_to (notStop_space hw4).2 ⟨'}', r, rfl, by decide⟩ e2, eatComma, if_neg (by decide), eatWs_cons (by decide)] at h
        cases n with
        | zero => simp [fields] at h
        | succ n =>
          rw [fields, if_pos rfl] at h
          rw [← Option.some.inj h, e1, cstr_eq hk0]
  | _, _, .cons (k := k) (v := v) (l := l) (w1 := w1) (kt := kt) (w2 := w2) (w3 := w3) (t := t) (w4 := w4) (u := u) hw1 hk hk0 hw2 hw3 ht hw4 hl hu, n, r, p, h => by
    obtain ⟨c, q, e, hs, -, hc⟩ := text_head ht
    cases n with
    | zero => simp [fields] at h
    | succ n =>
      rw [List.append_assoc, eatWs_append hw1, List.cons_append, eatWs_cons (by decide), fields, if_neg (by decide), List.append_assoc, List.cons_append, if_neg (by simp), readStr_text hk] at h
      dsimp only at h
      rw [List.drop_one, List.tail_cons, List.append_assoc, eatWs_append hw2, List.cons_append, eatWs_cons (by decide)] at h
      dsimp only at h
      rw [if_neg (by decide), List.append_assoc, eatWs_append hw3, List.append_assoc, List.append_assoc, e, List.cons_append, eatWs_cons hs, ← List.cons_append, ← e] at h
      split at h
      · cases h
      · rename_i v' s' e'
        obtain ⟨e1, e2⟩ := text_ok htrail ht n w4 (',' :: u ++ '}' :: r) _ hw4 hl (.inr ⟨_, _, rfl, rfl⟩) e'
        dsimp only at e1 e2
        rw [skip_to (notStop_space hw4).2 ⟨',', u ++ '}' :: r, rfl, by decide⟩ e2, eatComma, if_pos rfl] at h
        split at h
        · cases h
        · rename_i l' s'' e''
          have := members_ok htrail hu n r _ e''
          obtain ⟨rfl, rfl⟩ := Prod.mk.inj this
          rw [← Option.some.inj h, e1, cstr_eq hk0]
end

/-- **C88**: `ParseJSON` on a text of the grammar (with the restrictions given at `Text`), with blank space in front of it and, unless it is one of the words, behind it, gives the value that the
text denotes. The assumption on `strtod` is that it ignores blank space after the number. -/
theorem C88_parse_partial {strict : Bool} {strtod : List Char → D} (htrail : ∀ t w, AllWs w → strtod (t ++ w) = strtod t) {v : Value D} {t : List Char} (h : Text strict strtod v t)
    {w1 w2 : List Char} (hw1 : AllWs w1) (hw2 : AllWs w2) (hl : v.Literal → w2 = []) : ∃ r, parseJSON strtod (w1 ++ (t ++ w2)) = some (v, r) ∧ AllWs r := by
  obtain ⟨v', r, e, -⟩ := C88_terminates strtod (w1 ++ (t ++ w2))
  have e2 : parse strtod (2 * (w1 ++ (t ++ w2)).length + 1) (t ++ (w2 ++ [])) = some (v', r) := by
    rw [List.append_nil]
    rw [parseJSON] at e
    obtain ⟨c, q, et, hs, -⟩ := text_head h
    rw [parse, eatWs_append hw1] at e
    rw [parse]
    exact e
  obtain ⟨h1, h2⟩ := text_ok htrail h _ w2 [] _ hw2 hl (.inl rfl) e2
  dsimp only at h1 h2
  refine ⟨r, by rw [e, h1], ?_⟩
  rcases h2 with rfl | rfl
  · rw [List.append_nil]; exact hw2
  · intro c hc; cases hc

/-! ## Writing -/

/-- The strings that the writer can write: the grammar proper allows only those control characters that have an escape of their own. -/
def StrOk (strict : Bool) (s : List Char) : Prop := strict = true → ∀ c ∈ s, ' ' ≤ c ∨ c = '\x08' ∨ c = '\x0c' ∨ c = '\n' ∨ c = '\r' ∨ c = '\t'

/-- The names that the writer can write: it does not escape them. -/
def NameOk (strict : Bool) (k : List Char) : Prop := '"' ∉ k ∧ '\\' ∉ k ∧ '\x00' ∉ k ∧ (strict = true → ∀ c ∈ k, ' ' ≤ c)

def Value.isBool : Value D → Bool
  | .bool _ => true
  | _ => false

/-- The last member is a boolean. -/
def endsBool : List (List Char × Value D) → Bool
  | [] => false
  | [(_, v)] => v.isBool
  | _ :: l => endsBool l

mutual
/-- The values that the writer writes properly: without null, doubles whose text has a point and stands for them; names as above; and for the pretty form no boolean at the end of an object. -/
def Value.Ok (strict pretty : Bool) (showD : D → List Char) (strtod : List Char → D) : Value D → Prop
  | .null => False
  | .str s => StrOk strict s
  | .dbl d => FracText (showD d) ∧ strtod (showD d) = d
  | .int i => -2 ^ 63 ≤ i ∧ i < 2 ^ 63
  | .bool _ => True
  | .arr l => OkL strict pretty showD strtod l
  | .obj l => OkO strict pretty showD strtod l ∧ (pretty = true → endsBool l = false)

def OkL (strict pretty : Bool) (showD : D → List Char) (strtod : List Char → D) : List (Value D) → Prop
  | [] => True
  | v :: l => v.Ok strict pretty showD strtod ∧ OkL strict pretty showD strtod l

def OkO (strict pretty : Bool) (showD : D → List Char) (strtod : List Char → D) : List (List Char × Value D) → Prop
  | [] => True
  | (k, v) :: l => NameOk strict k ∧ v.Ok strict pretty showD strtod ∧ OkO strict pretty showD strtod l
end

theorem escape_text {strict : Bool} {s : List Char} (h : StrOk strict s) : StrText strict s (escape s) := by
  induction s with
  | nil => exact .nil
  | cons c s ih =>
    have ih := ih fun hs a ha => h hs a (List.mem_cons_of_mem _ ha)
    rw [escape]
    by_cases h1 : c = '"'
    · subst h1; exact .esc (by decide) ih
    · rw [if_neg h1]
      by_cases h2 : c = '\\'
      · subst h2; exact .esc (by decide) ih
      · rw [if_neg h2]
        by_cases h3 : c = '/'
        · subst h3; exact .esc (by decide) ih
        · rw [if_neg h3]
          by_cases h4 : c = '\x08'
          · subst h4; exact .esc (by decide) ih
          · rw [if_neg h4]
            by_cases h5 : c = '\x0c'
            · subst h5; exact .esc (by decide) ih
            · rw [if_neg h5]
              by_cases h6 : c = '\n'
              · subst h6; exact .esc (by decide) ih
              · rw [if_neg h6]
                by_cases h7 : c = '\r'
                · subst h7; exact .esc (by decide) ih
                · rw [if_neg h7]
                  by_cases h8 : c = '\t'
                  · subst h8; exact .esc (by decide) ih
                  · rw [if_neg h8]
                    refine .plain h1 h2 (fun hs => ?_) ih
                    rcases h hs c (List.mem_cons_self ..) with h | h | h | h | h | h
                    · exact h
                    · exact absurd h h4
                    · exact absurd h h5
                    · exact absurd h h6
                    · exact absurd h h7
                    · exact absurd h h8

theorem name_text {strict : Bool} {k : List Char} (h : NameOk strict k) : StrText strict k k := by
  induction k with
  | nil => exact .nil
  | cons c k ih =>
    obtain ⟨h1, h2, h3, h4⟩ := h
    rw [List.mem_cons, not_or] at h1 h2 h3
    exact .plain (Ne.symm h1.1) (Ne.symm h2.1) (fun hs => h4 hs c (List.mem_cons_self ..)) (ih ⟨h1.2, h2.2, h3.2, fun hs a ha => h4 hs a (List.mem_cons_of_mem _ ha)⟩)

theorem digit_char : ∀ d < 10, ('0' ≤ Char.ofNat (48 + d) ∧ Char.ofNat (48 + d) ≤ '9') ∧ (Char.ofNat (48 + d)).toNat - 48 = d ∧ (Char.ofNat (48 + d) = '0' → d = 0) := by decide

theorem digits_spec (n : Nat) : (digits n ≠ [] ∧ (∀ c ∈ digits n, '0' ≤ c ∧ c ≤ '9')) ∧ decVal (digits n) = n ∧ ((digits n).head? = some '0' → n = 0) := by
  rw [digits]
  split
  · rename_i h
    obtain ⟨h1, h2, h3⟩ := digit_char n h
    refine ⟨⟨by simp, fun c hc => ?_⟩, ?_, fun he => h3 (Option.some.inj he)⟩
    · rw [List.mem_singleton] at hc; exact hc ▸ h1
    · simp only [decVal, List.foldl_cons, List.foldl_nil]; omega
  · rename_i h
    obtain ⟨⟨i1, i2⟩, i3, i4⟩ := digits_spec (n / 10)
    obtain ⟨h1, h2, h3⟩ := digit_char (n % 10) (Nat.mod_lt _ (by decide))
    refine ⟨⟨by simp, fun c hc => ?_⟩, ?_, fun he => ?_⟩
    · rcases List.mem_append.1 hc with hc | hc
      · exact i2 c hc
      · rw [List.mem_singleton] at hc; exact hc ▸ h1
    · rw [decVal, List.foldl_append]
      change List.foldl _ (decVal (digits (n / 10))) _ = n
      rw [i3]
      simp only [List.foldl_cons, List.foldl_nil]
      omega
    · have hh : (digits (n / 10)).head? = some '0' := by
        rcases e : digits (n / 10) with _ | ⟨c, q⟩
        · exact absurd e i1
        · rw [e] at he; exact he
      have := i4 hh
      omega
termination_by n
decreasing_by omega

theorem digits_ok (n : Nat) : Digits (digits n) := by
  obtain ⟨⟨h1, h2⟩, -, h3⟩ := digits_spec n
  refine ⟨h1, h2, fun h => ?_⟩
  rw [h3 h]
  decide +kernel

theorem decimal_text (i : Int) : IntText i (decimal i) := by
  rw [decimal]
  have h := (digits_spec i.natAbs).2.1
  split
  · have := IntText.neg (digits_ok i.natAbs)
    rw [h] at this
    have e : -((i.natAbs : Nat) : Int) = i := by omega
    rwa [e] at this
  · have := IntText.pos (digits_ok i.natAbs)
    rw [h] at this
    have e : ((i.natAbs : Nat) : Int) = i := by omega
    rwa [e] at this

theorem line_ws (level : Nat) : AllWs (line level) := by
  intro c hc
  rw [line] at hc
  split at hc
  · rw [List.mem_cons] at hc
    rcases hc with rfl | hc
    · simp
    · rw [tabs, List.mem_replicate] at hc
      simp [hc.2]
  · cases hc

theorem nil_ws : AllWs [] := fun c hc => by cases hc

theorem written_ok {strict pretty : Bool} {showD : D → List Char} {strtod : List Char → D} {v : Value D} (h : v.Ok strict pretty showD strtod) : v.written = true := by
  cases v <;> first | rfl | exact h.elim

theorem literal_isBool {strict pretty : Bool} {showD : D → List Char} {strtod : List Char → D} {v : Value D} (h : v.Ok strict pretty showD strtod) (hl : v.Literal) : v.isBool = true := by
  cases v with
  | null => exact h.elim
  | bool => rfl
  | _ => exact hl.elim

mutual
/-- The text written for a value: after a comma and blank space, or after a comma and the name. -/
theorem write_text {strict : Bool} {showD : D → List Char} {strtod : List Char → D} : ∀ (v : Value D) (level : Nat), v.Ok strict (decide (0 < level)) showD strtod →
    ∃ t w, Text strict strtod v t ∧ AllWs w ∧ (∀ flag, write showD level flag none v = writeComma flag ++ (w ++ t)) ∧
      ∀ flag k, write showD level flag (some k) v = writeComma flag ++ (writeId level (some k) ++ t)
  | .null, level, h => h.elim
  | .str s, level, h => ⟨_, [], .str (escape_text h), nil_ws, fun flag => by simp [write, writeId], fun flag k => by simp [write]⟩
  | .dbl d, level, h => ⟨_, [], by have := Text.dbl (strict := strict) (strtod := strtod) h.1; rwa [h.2] at this, nil_ws, fun flag => by simp [write, writeId],
      fun flag k => by simp [write]⟩
  | .int i, level, h => ⟨_, [], .int (decimal_text i) h.1 h.2, nil_ws, fun flag => by simp [write, writeId], fun flag k => by simp [write]⟩
  | .bool true, level, h => ⟨_, [], .tru, nil_ws, fun flag => by simp [write, writeId], fun flag k => by simp [write]⟩
  | .bool false, level, h => ⟨_, [], .fls, nil_ws, fun flag => by simp [write, writeId], fun flag k => by simp [write]⟩
  | .arr [], level, h => ⟨_, [], .arr0 nil_ws, nil_ws, fun flag => by simp [write, writeId, writeL], fun flag k => by simp [write, writeL]⟩
  | .arr (v :: l), level, h => by
    have hd : decide (0 < deeper level) = decide (0 < level) := by
      rw [deeper]; split <;> simp_all
    obtain ⟨t, h1, h2⟩ := writeL_text (v :: l) (deeper level) (by simp) (by rw [hd]; exact h)
    refine ⟨_, [], .arr h1, nil_ws, fun flag => ?_, fun flag k => ?_⟩
    · rw [write, h2]; simp [writeId, writeComma]
    · rw [write, h2]; simp [writeComma]
  | .obj [], level, h => by
    refine ⟨_, line level, .obj0 (line_ws level), line_ws level, fun flag => ?_, fun flag k => ?_⟩
    · simp [write, writeO]
    · simp [write, writeO]
  | .obj (m :: l), level, h => by
    have hd : decide (0 < deeper level) = decide (0 < level) := by
      rw [deeper]; split <;> simp_all
    obtain ⟨t, h1, h2⟩ := writeO_text (m :: l) (deeper level) (by simp) (by rw [hd]; exact h.1) (line level) (line_ws level) (fun he => by
      by_cases hl : 0 < level
      · rw [h.2 (by simp [hl])] at he; cases he
      · rw [line, if_neg hl])
    refine ⟨_, line level, .obj h1, line_ws level, fun flag => ?_, fun flag k => ?_⟩
    · rw [write, ← List.append_assoc (writeO ..), h2]; simp [writeComma]
    · rw [write, ← List.append_assoc (writeO ..), h2]; simp [writeComma]

theorem writeL_text {strict : Bool} {showD : D → List Char} {strtod : List Char → D} : ∀ (l : List (Value D)) (level : Nat), l ≠ [] → OkL strict (decide (0 < level)) showD strtod l →
    ∃ t, Items strict strtod l t ∧ ∀ flag, writeL showD level flag l = writeComma flag ++ t
  | [], level, hn, h => absurd rfl hn
  | [v], level, hn, h => by
    obtain ⟨t, w, h1, h2, h3, -⟩ := write_text v level h.1
    refine ⟨_, .one h2 h1 nil_ws (fun _ => rfl), fun flag => ?_⟩
    simp [writeL, h3]
  | v :: v' :: l, level, hn, h => by
    obtain ⟨t, w, h1, h2, h3, -⟩ := write_text v level h.1
    obtain ⟨u, h4, h5⟩ := writeL_text (v' :: l) level (by simp) h.2
    refine ⟨_, .cons h2 h1 nil_ws (fun _ => rfl) h4, fun flag => ?_⟩
    rw [writeL, h3, h5, written_ok h.1, Bool.or_true]
    simp [writeComma]

theorem writeO_text {strict : Bool} {showD : D → List Char} {strtod : List Char → D} : ∀ (l : List (List Char × Value D)) (level : Nat), l ≠ [] →
    OkO strict (decide (0 < level)) showD strtod l → ∀ cw, AllWs cw → (endsBool l = true → cw = []) → ∃ t, Members strict strtod l t ∧ ∀ flag, writeO showD level flag l ++ cw = writeComma flag ++ t
  | [], level, hn, h, cw, hc, he => absurd rfl hn
  | [(k, v)], level, hn, h, cw, hc, he => by
    obtain ⟨t, w, h1, h2, -, h3⟩ := write_text v level h.2.1
    have hsp : AllWs [' '] := fun c hc => by rw [List.mem_singleton] at hc; simp [hc]
    refine ⟨_, .one (line_ws level) (name_text h.1) h.1.2.2.1 nil_ws hsp h1 hc fun hl => he (literal_isBool h.2.1 hl), fun flag => ?_⟩
    simp [writeO, h3, writeId, cstr_eq h.1.2.2.1]
  | (k, v) :: m :: l, level, hn, h, cw, hc, he => by
    obtain ⟨t, w, h1, h2, -, h3⟩ := write_text v level h.2.1
    obtain ⟨u, h4, h5⟩ := writeO_text (m :: l) level (by simp) h.2.2 cw hc he
    have hsp : AllWs [' '] := fun c hc => by rw [List.mem_singleton] at hc; simp [hc]
    refine ⟨_, .cons (line_ws level) (name_text h.1) h.1.2.2.1 nil_ws hsp h1 nil_ws (fun _ => rfl) h4, fun flag => ?_⟩
    rw [writeO, h3, List.append_assoc, h5, written_ok h.2.1, Bool.or_true]
    simp [writeComma, writeId, cstr_eq h.1.2.2.1]
end

/-- **C87**: `WriteJSON`, compact or pretty, writes a JSON text (after blank space) that denotes the value, for the values described at `Value.Ok`. -/
theorem C87_grammar_partial {showD : D → List Char} {strtod : List Char → D} (v : Value D) (pretty : Nat) (h : v.Ok true (decide (0 < pretty)) showD strtod) :
    ∃ w t, AllWs w ∧ Text true strtod v t ∧ writeJSON showD pretty v = w ++ t := by
  obtain ⟨t, w, h1, h2, h3, -⟩ := write_text v pretty h
  exact ⟨w, t, h2, h1, by rw [writeJSON, h3]; rfl⟩

/-- **C87**: `ParseJSON` reads back what `WriteJSON` wrote, compact or pretty, also with control characters in the strings. -/
theorem C87_roundtrip_partial {showD : D → List Char} {strtod : List Char → D} (htrail : ∀ t w, AllWs w → strtod (t ++ w) = strtod t) (v : Value D) (pretty : Nat)
    (h : v.Ok false (decide (0 < pretty)) showD strtod) : ∃ r, parseJSON strtod (writeJSON showD pretty v) = some (v, r) := by
  obtain ⟨t, w, h1, h2, h3, -⟩ := write_text v pretty h
  obtain ⟨r, e, -⟩ := C88_parse_partial htrail h1 h2 nil_ws fun _ => rfl
  rw [List.append_nil] at e
  exact ⟨r, by rw [writeJSON, h3]; exact e⟩

/-! ## Examples and counterexamples

The doubles are here the texts themselves, with the trailing blank space ignored. -/

/-- A number text without the blank space behind it. -/
def trim (t : List Char) : List Char := (t.reverse.dropWhile isSpace).reverse

theorem trim_ws (t w : List Char) (h : AllWs w) : trim (t ++ w) = trim t := by
  have : ∀ (u s : List Char), (∀ c ∈ u, isSpace c = true) → (u ++ s).dropWhile isSpace = s.dropWhile isSpace := fun u s hu => List.dropWhile_append_of_pos hu
  rw [trim, trim, List.reverse_append, this _ _ fun c hc => h.space (List.mem_reverse.1 hc)]

/-- A value with everything in it, which the theorems cover in both forms. -/
def sample : Value (List Char) :=
  .obj [("a\tb/".toList.take 1, .arr [.int (-5), .dbl "2.5".toList, .obj [], .arr [], .bool true]), ("n".toList, .obj [("t".toList, .bool false), ("s".toList, .str "x\"\\\n".toList)])]

example : sample.Ok true true id trim := by
  refine ⟨⟨⟨by decide, by decide, by decide, fun _ => by decide⟩, ⟨⟨by decide, by decide⟩, ?_, ⟨trivial, fun _ => rfl⟩, trivial, trivial, trivial⟩,
    ⟨by decide, by decide, by decide, fun _ => by decide⟩, ⟨⟨⟨by decide, by decide, by decide, fun _ => by decide⟩, trivial, ⟨by decide, by decide, by decide, fun _ => by decide⟩, fun _ => by decide, trivial⟩,
      fun _ => rfl⟩, trivial⟩, fun _ => rfl⟩
  exact ⟨⟨⟨'2', ['.', '5'], rfl, by decide⟩, by decide, by decide⟩, by decide⟩

example : writeJSON id 0 sample = "{\"a\": [-5,2.5,{},[],true],\"n\": {\"t\": false,\"s\": \"x\\\"\\\\\\n\"}}".toList := by
  simp [writeJSON, sample, write, writeL, writeO, writeComma, writeId, line, deeper, cstr, escape, decimal, digits, Value.written]

/-- A text with blank space and an escape. -/
example : Text true trim (.arr [.int 1, .str ['\xc3', '\xa9']] : Value (List Char)) "[ 1 ,\"\\u00E9\"]".toList := by
  have h1 : Text true trim (.int 1 : Value (List Char)) ['1'] := .int (.pos (ds := ['1']) ⟨by decide, by decide, by decide⟩) (by decide) (by decide)
  have h2 : StrText true ['\xc3', '\xa9'] ['\\', 'u', '0', '0', 'E', '9'] :=
    .uni (x := 0) (y := 0) (z := 14) (w := 9) (s := []) (t := []) (by decide) (by decide) (by decide) (by decide) (by decide) .nil
  have sp : AllWs [' '] := by simp [AllWs]
  exact .arr (.cons (w1 := [' ']) (w2 := [' ']) sp h1 sp (fun h => h.elim) (.one (w1 := []) (w2 := []) nil_ws (.str h2) nil_ws fun _ => rfl))

/-- **C87**: a null is not written at all: it disappears from an array, and alone it is read back as a string of one byte. -/
theorem C87_null_counterexample : writeJSON id 0 (.arr [.null, .int 1] : Value (List Char)) = "[1]".toList ∧ writeJSON id 0 (.null : Value (List Char)) = [] ∧
    parseJSON trim [] = some (.str ['\xff'], []) := by
  refine ⟨?_, rfl, rfl⟩
  simp [writeJSON, write, writeL, writeComma, writeId, Value.written, decimal, digits]

/-- **C87**: in the pretty form a boolean at the end of an object is read back as a string. -/
theorem C87_pretty_bool_counterexample : writeJSON id 1 (.obj [("a".toList, .bool true)] : Value (List Char)) = "\n{\n\t\"a\": true\n}".toList ∧
    parseJSON trim "\n{\n\t\"a\": true\n}".toList = some (.obj [("a".toList, .str "true\n".toList)], []) := by
  constructor
  · simp [writeJSON, write, writeO, writeComma, writeId, line, deeper, tabs, cstr]
  · simp [parseJSON, parse, fields, eatWs, isSpace, readStr, eatChar, getc, parseStr, isStop, numStart, isDigit, word, cstr, stricmpEq, eatComma, Char.toLower]

/-- **C87**: a double without a point in its text becomes an integer. -/
theorem C87_double_counterexample : parseJSON trim (writeJSON id 0 (.dbl "1e+20".toList : Value (List Char))) = some (.int 1, []) := by
  simp [writeJSON, write, writeComma, writeId, parseJSON, parse, eatWs, isSpace, parseStr, isStop, numStart, isDigit, number, cstr, strtoll, splitSign, decNum]
  decide

/-- **C87**: a quote in a name is not escaped; the text written for the name `a"b` is no JSON text and is read back with nothing in the object. -/
theorem C87_name_counterexample : writeJSON id 0 (.obj [("a\"b".toList, .int 1)] : Value (List Char)) = "{\"a\"b\": 1}".toList ∧
    parseJSON trim "{\"a\"b\": 1}".toList = some (.obj [], []) := by
  constructor
  · simp [writeJSON, write, writeO, writeComma, writeId, line, deeper, cstr, decimal, digits]
  · simp [parseJSON, parse, fields, eatWs, isSpace, readStr, eatChar, getc]

/-- **C88**: blank space after a word makes it a string. -/
theorem C88_blank_counterexample : parseJSON trim "[true ,1]".toList = some (.arr [.str "true ".toList, .int 1], []) := by
  simp [parseJSON, parse, elems, eatWs, isSpace, parseStr, isStop, numStart, isDigit, word, number, cstr, stricmpEq, eatComma, Char.toLower, strtoll, splitSign, decNum]
  decide

/-- **C88**: an exponent without a point is ignored. -/
theorem C88_exponent_counterexample : parseJSON trim "[1e5]".toList = some (.arr [.int 1], []) := by
  simp [parseJSON, parse, elems, eatWs, isSpace, parseStr, isStop, numStart, isDigit, number, cstr, eatComma, strtoll, splitSign, decNum]
  decide

/-- **C88**: a surrogate pair (here U+10000) becomes two codes of three bytes instead of one code of four. -/
theorem C88_surrogate_counterexample : ((readStr "\\ud800\\udc00\"".toList).1.map Char.toNat) = [0xED, 0xA0, 0x80, 0xED, 0xB0, 0x80] := by
  simp [readStr, eatChar, getc, strtoul16, splitSign, isSpace, dropHexPrefix, hexNum, hexVal, outputUnicode, byte]

end Verif.Json
