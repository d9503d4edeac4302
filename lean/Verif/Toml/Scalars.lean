import Verif.Toml.Grammar
/-!
# Reading keys, strings, numbers and booleans
-/

namespace Verif.Toml
open Verif.Json (hexDigits utf8 decVal isSpace isDigit decNum splitSign strtoul16 outputUnicode cstr getc hexNum hexVal dropHexPrefix)

variable {D : Type}

/-! ## Spaces -/

theorem isBlank_iff (c : Char) : isBlank c = true ↔ Blank c := by simp [isBlank, Blank]

theorem isNl_iff (c : Char) : isNl c = true ↔ NL c := by simp [isNl, NL]

theorem isNl_false {c : Char} (h : ¬NL c) : isNl c = false := by
  rw [← Bool.not_eq_true, isNl_iff]; exact h

theorem isBlank_false {c : Char} (h : ¬Blank c) : isBlank c = false := by
  rw [← Bool.not_eq_true, isBlank_iff]; exact h

theorem dropWhile_all {α : Type} {p : α → Bool} {a b : List α} (h : ∀ c ∈ a, p c = true) : (a ++ b).dropWhile p = b.dropWhile p := by
  induction a with
  | nil => rfl
  | cons x a ih => rw [List.cons_append, List.dropWhile_cons, if_pos (h x (List.mem_cons_self ..)), ih fun c hc => h c (List.mem_cons_of_mem _ hc)]

theorem takeWhile_all {α : Type} {p : α → Bool} {a b : List α} (h : ∀ c ∈ a, p c = true) : (a ++ b).takeWhile p = a ++ b.takeWhile p := by
  induction a with
  | nil => rfl
  | cons x a ih =>
    rw [List.cons_append, List.takeWhile_cons, if_pos (h x (List.mem_cons_self ..)), ih fun c hc => h c (List.mem_cons_of_mem _ hc)]
    rfl

/-- The list is empty or its first element does not satisfy `p`. -/
theorem dropWhile_head {α : Type} {p : α → Bool} {b : List α} (h : ∀ c, b.head? = some c → p c = false) : b.dropWhile p = b := by
  cases b with
  | nil => rfl
  | cons x b => rw [List.dropWhile_cons, if_neg (by simp [h x rfl])]

theorem takeWhile_head {α : Type} {p : α → Bool} {b : List α} (h : ∀ c, b.head? = some c → p c = false) : b.takeWhile p = [] := by
  cases b with
  | nil => rfl
  | cons x b => rw [List.takeWhile_cons, if_neg (by simp [h x rfl])]

theorem eatWs_blanks {b : List Char} (h : Blanks b) (s : List Char) : eatWs (b ++ s) = eatWs s :=
  dropWhile_all fun c hc => (isBlank_iff c).2 (h c hc)

theorem eatWs_cons {c : Char} (h : ¬Blank c) (s : List Char) : eatWs (c :: s) = c :: s :=
  dropWhile_head fun d hd => by cases hd; exact isBlank_false h

theorem eatWs_head {s : List Char} (h : ∀ c, s.head? = some c → ¬Blank c) : eatWs s = s :=
  dropWhile_head fun c hc => isBlank_false (h c hc)

theorem toNl_line {x : List Char} (h : ∀ a ∈ x, ¬NL a) (s : List Char) : toNl (x ++ s) = toNl s :=
  dropWhile_all fun c hc => by simp [isNl_false (h c hc)]

theorem toNl_nl {c : Char} (h : NL c) (s : List Char) : toNl (c :: s) = c :: s :=
  dropWhile_head fun d hd => by cases hd; simp [(isNl_iff c).2 h]

theorem isSpace_blank {c : Char} (h : Blank c ∨ NL c) : isSpace c = true := by
  rcases h with (rfl | rfl) | (rfl | rfl) <;> rfl

theorem blank_ne {c : Char} (h : Blank c ∨ NL c) : c ≠ '#' := by
  rcases h with (rfl | rfl) | (rfl | rfl) <;> decide

theorem eatAll_gap {g : List Char} (h : Gap g) (s : List Char) : eatAll (g ++ s) = eatAll s := by
  induction h with
  | nil => rfl
  | ws hc _ ih => rw [List.cons_append, eatAll, if_neg (blank_ne hc), if_pos (isSpace_blank hc), ih]
  | comment hx hc _ ih =>
    rw [List.cons_append, List.append_assoc, List.cons_append, eatAll, if_pos rfl, toNl_line hx, toNl_nl hc, eatAll, if_neg (blank_ne (Or.inr hc)),
      if_pos (isSpace_blank (Or.inr hc)), ih]

theorem eatAll_cons {c : Char} (h : c ≠ '#') (hs : isSpace c = false) (s : List Char) : eatAll (c :: s) = c :: s := by
  rw [eatAll, if_neg h, if_neg (by simp [hs])]

theorem eatAll_nil : eatAll [] = [] := by rw [eatAll]

theorem gap_blanks {w : List Char} (h : ∀ c ∈ w, Blank c ∨ NL c) : Gap w := by
  induction w with
  | nil => exact .nil
  | cons a w ih => exact .ws (h a (List.mem_cons_self ..)) (ih fun c hc => h c (List.mem_cons_of_mem _ hc))

theorem gap_append {g h : List Char} (hg : Gap g) (hh : Gap h) : Gap (g ++ h) := by
  induction hg with
  | nil => exact hh
  | ws hc _ ih => exact .ws hc ih
  | comment hx hc _ ih =>
    rw [List.cons_append, List.append_assoc, List.cons_append]
    exact .comment hx hc ih

theorem eat1_ne {c d : Char} (h : d ≠ c) (s : List Char) : eat1 c (d :: s) = d :: s := by rw [eat1, if_neg h]

theorem eat1_eq (c : Char) (s : List Char) : eat1 c (c :: s) = s := by rw [eat1, if_pos rfl]

theorem eat1_head {c : Char} {s : List Char} (h : s.head? ≠ some c) : eat1 c s = s := by
  cases s with
  | nil => rfl
  | cons d s => exact eat1_ne (fun e => h (by rw [e]; rfl)) s

/-! ## Strings -/

theorem hexNum_map : ∀ (l : List (Char × Nat)) (acc : Nat), (∀ p ∈ l, p ∈ hexDigits) → hexNum acc (l.map Prod.fst) = l.foldl (fun acc p => 16 * acc + p.2) acc
  | [], _, _ => rfl
  | p :: l, acc, h => by
    rw [List.map_cons, hexNum, (Json.hex_facts p (h p (List.mem_cons_self ..))).1]
    exact hexNum_map l _ fun q hq => h q (List.mem_cons_of_mem _ hq)

theorem strtoul16_map {p q r : Char × Nat} {l : List (Char × Nat)} (h : ∀ a ∈ p :: q :: r :: l, a ∈ hexDigits) :
    strtoul16 ((p :: q :: r :: l).map Prod.fst) = (hexVals (p :: q :: r :: l) : Int) := by
  obtain ⟨a1, a2, a3, a4, a5, a6, a7⟩ := Json.hex_facts p (h p (by simp))
  obtain ⟨b1, b2, b3, b4, b5, b6, b7⟩ := Json.hex_facts q (h q (by simp))
  have e1 : ((p :: q :: r :: l).map Prod.fst).dropWhile isSpace = (p :: q :: r :: l).map Prod.fst := by
    rw [List.map_cons, List.dropWhile_cons, if_neg (by simp [a2])]
  have e2 : dropHexPrefix ((p :: q :: r :: l).map Prod.fst) = (p :: q :: r :: l).map Prod.fst := by
    rw [List.map_cons, List.map_cons, List.map_cons, dropHexPrefix, if_neg fun h => h.2.1.elim b5 b6]
  have e3 : splitSign ((p :: q :: r :: l).map Prod.fst) = (false, (p :: q :: r :: l).map Prod.fst) := by
    rw [List.map_cons, splitSign, if_neg a3, if_neg a4]
  rw [strtoul16, e1, e3]
  dsimp only
  rw [e2, hexNum_map _ _ h]
  rfl

theorem hexVals_lt : ∀ (l : List (Char × Nat)) (acc : Nat), (∀ p ∈ l, p ∈ hexDigits) → l.foldl (fun acc p => 16 * acc + p.2) acc < (acc + 1) * 16 ^ l.length
  | [], acc, _ => by simp
  | p :: l, acc, h => by
    have h1 := (Json.hex_facts p (h p (List.mem_cons_self ..))).2.2.2.2.2.2
    have h2 := hexVals_lt l (16 * acc + p.2) fun q hq => h q (List.mem_cons_of_mem _ hq)
    rw [List.foldl_cons, List.length_cons, Nat.pow_succ]
    refine Nat.lt_of_lt_of_le h2 ?_
    calc (16 * acc + p.2 + 1) * 16 ^ l.length ≤ (16 * (acc + 1)) * 16 ^ l.length := Nat.mul_le_mul_right _ (by omega)
      _ = (acc + 1) * (16 ^ l.length * 16) := by rw [Nat.mul_comm 16, Nat.mul_assoc, Nat.mul_comm 16]

theorem outputUnicode_utf8' {n : Nat} (h : n < 0x10FFFF) : outputUnicode (n : Int) = utf8' n := by
  rw [utf8']
  split
  · rename_i h1
    exact Json.outputUnicode_utf8 h1
  · rename_i h1
    rw [outputUnicode, if_neg (by omega)]
    dsimp only
    rw [Int.toNat_natCast, if_neg (by omega), if_neg (by omega), if_pos h]
    have m1 : n &&& 0x3F = n % 64 := Nat.and_two_pow_sub_one_eq_mod n 6
    have m2 : (n &&& 0x0FC0) >>> 6 = n / 64 % 64 := by
      rw [Nat.shiftRight_and_distrib, show 0x0FC0 >>> 6 = 2 ^ 6 - 1 from rfl, Nat.and_two_pow_sub_one_eq_mod, Nat.shiftRight_eq_div_pow]
    have m3 : (n &&& 0x03F000) >>> 12 = n / 4096 % 64 := by
      rw [Nat.shiftRight_and_distrib, show 0x03F000 >>> 12 = 2 ^ 6 - 1 from rfl, Nat.and_two_pow_sub_one_eq_mod, Nat.shiftRight_eq_div_pow]
    have o1 : ∀ b, b < 64 → 0x80 ||| b = 128 + b := fun b hb => Json.or_add (a := 2) (k := 6) hb
    rw [m1, m2, m3, o1 _ (by omega), o1 _ (by omega), o1 _ (by omega), Nat.shiftRight_eq_div_pow, show (0xF0 ||| n / 2 ^ 18) = 240 + n / 262144 from Json.or_add (a := 30) (k := 3) (by omega),
      Json.byte_lt (by omega), Json.byte_lt (by omega), Json.byte_lt (by omega), Json.byte_lt (by omega)]

theorem list4 {α : Type} {l : List α} (h : l.length = 4) : ∃ a b c d, l = [a, b, c, d] := by
  rcases l with _ | ⟨a, _ | ⟨b, _ | ⟨c, _ | ⟨d, _ | ⟨e, l⟩⟩⟩⟩⟩ <;> simp at h
  exact ⟨_, _, _, _, rfl⟩

theorem list8 {α : Type} {l : List α} (h : l.length = 8) : ∃ a b c d e f g i, l = [a, b, c, d, e, f, g, i] := by
  rcases l with _ | ⟨a, _ | ⟨b, _ | ⟨c, _ | ⟨d, _ | ⟨e, _ | ⟨f, _ | ⟨g, _ | ⟨i, _ | ⟨j, l⟩⟩⟩⟩⟩⟩⟩⟩⟩ <;> simp at h
  exact ⟨_, _, _, _, _, _, _, _, rfl⟩

theorem eatChar_esc (ml : Bool) {a x : List Char} (h : EscText a x) (t : List Char) : eatChar ml (x ++ t) = (a, t) := by
  cases h with
  | char h =>
    simp only [escapes, List.mem_cons, Prod.mk.injEq, List.not_mem_nil, or_false] at h
    rcases h with ⟨rfl, rfl⟩ | ⟨rfl, rfl⟩ | ⟨rfl, rfl⟩ | ⟨rfl, rfl⟩ | ⟨rfl, rfl⟩ | ⟨rfl, rfl⟩ | ⟨rfl, rfl⟩ <;> cases ml <;> rfl
  | uni4 h hl =>
    obtain ⟨p, q, r, o, rfl⟩ := list4 hl
    have e : eatChar ml ('\\' :: 'u' :: (List.map Prod.fst [p, q, r, o] ++ t)) = (uni4 (p.1 :: q.1 :: r.1 :: o.1 :: t), t) := by
      cases ml <;> rfl
    rw [List.cons_append, List.cons_append, e]
    have h1 : uni4 (p.1 :: q.1 :: r.1 :: o.1 :: t) = outputUnicode (strtoul16 ([p, q, r, o].map Prod.fst)) := rfl
    have hlt := hexVals_lt [p, q, r, o] 0 h
    rw [h1, strtoul16_map h, outputUnicode_utf8']
    change (hexVals _) < _ at hlt
    simp only [List.length_cons, List.length_nil] at hlt
    omega
  | uni8 h hl hlt =>
    obtain ⟨p, q, r, o, p', q', r', o', rfl⟩ := list8 hl
    have e : eatChar ml ('\\' :: 'U' :: (List.map Prod.fst [p, q, r, o, p', q', r', o'] ++ t)) = (uni8 (p.1 :: q.1 :: r.1 :: o.1 :: p'.1 :: q'.1 :: r'.1 :: o'.1 :: t), t) := by
      cases ml <;> rfl
    rw [List.cons_append, List.cons_append, e]
    have h1 : uni8 (p.1 :: q.1 :: r.1 :: o.1 :: p'.1 :: q'.1 :: r'.1 :: o'.1 :: t) = outputUnicode (Int.bmod (strtoul16 ([p, q, r, o, p', q', r', o'].map Prod.fst)) (2 ^ 32)) := rfl
    rw [h1, strtoul16_map h, Int.bmod_eq_of_le (by omega) (by omega), outputUnicode_utf8' hlt]

theorem esc_head {a x : List Char} (h : EscText a x) : ∃ y, x = '\\' :: y := by
  cases h with
  | char => exact ⟨_, rfl⟩
  | uni4 => exact ⟨_, rfl⟩
  | uni8 => exact ⟨_, rfl⟩

theorem eatChar_plain (ml : Bool) {c : Char} (h : c ≠ '\\') (s : List Char) : eatChar ml (c :: s) = ([c], s) := by
  cases s <;> rw [eatChar, if_neg h]

theorem single_text (ml : Bool) {s t : List Char} (h : StrText s t) (r : List Char) : single ml (t ++ '"' :: r) = (s, '"' :: r) := by
  induction h with
  | nil => rw [List.nil_append, single, if_pos (by simp)]
  | char h1 h2 h3 _ ih =>
    rw [List.cons_append, single, if_neg (by simp [isNl_false h3, h1]), eatChar_plain ml h2]
    dsimp only
    rw [ih]
    rfl
  | @esc a x s t h _ ih =>
    obtain ⟨y, rfl⟩ := esc_head h
    have e := eatChar_esc ml h (t ++ '"' :: r)
    rw [List.append_assoc]
    rw [List.cons_append] at e ⊢
    rw [single, if_neg (by decide), e]
    dsimp only
    rw [ih]

theorem strText_head {s t : List Char} (h : StrText s t) : t.head? ≠ some '"' := by
  cases h with
  | nil => simp
  | char h1 => simpa using h1
  | esc h =>
    obtain ⟨y, rfl⟩ := esc_head h
    simp

theorem basic_text (ml : Bool) {s t : List Char} (h : StrText s t) {r : List Char} (hr : r.head? ≠ some '"') : basic ml (t ++ '"' :: r) = (s, r) := by
  have hh := strText_head h
  have hs := single_text ml h r
  rcases t with _ | ⟨c, t⟩
  · cases r with
    | nil =>
      have : s = [] := by
        rw [List.nil_append, single, if_pos (by simp)] at hs
        exact (Prod.mk.inj hs).1.symm
      rw [this]
      rfl
    | cons d r =>
      have : s = [] := by
        rw [List.nil_append, single, if_pos (by simp)] at hs
        exact (Prod.mk.inj hs).1.symm
      have hd : d ≠ '"' := fun e => hr (by rw [e]; rfl)
      rw [this, List.nil_append]
      simp only [basic, if_true]
      rw [if_neg fun h => hd h.1, eat1_ne hd]
  · have hc : c ≠ '"' := fun e => hh (by rw [e]; rfl)
    rw [List.cons_append] at hs ⊢
    simp only [basic]
    rw [if_neg hc, hs]
    dsimp only
    rw [eat1_eq]

theorem literal_text (ml : Bool) {s : List Char} (h : ∀ c ∈ s, c ≠ '\'' ∧ ¬NL c) {r : List Char} (hr : r.head? ≠ some '\'') : literal ml (s ++ '\'' :: r) = (s, r) := by
  rcases s with _ | ⟨c, s⟩
  · cases r with
    | nil => rfl
    | cons d r =>
      have hd : d ≠ '\'' := fun e => hr (by rw [e]; rfl)
      rw [List.nil_append]
      simp only [literal, if_true]
      rw [if_neg fun h => hd h.1, eat1_ne hd]
  · have hc := h c (List.mem_cons_self ..)
    have hp : ∀ a ∈ c :: s, (!(isNl a || a == '\'')) = true := fun a ha => by
      simp [isNl_false (h a ha).2, (h a ha).1]
    have e1 := takeWhile_all (b := '\'' :: r) hp
    have e2 := dropWhile_all (b := '\'' :: r) hp
    rw [List.cons_append] at e1 e2 ⊢
    simp only [literal]
    rw [if_neg hc.1, e1, e2, takeWhile_head (fun d hd => by cases hd; rfl), dropWhile_head (fun d hd => by cases hd; rfl), eat1_eq, List.append_nil]

theorem multiText_ne {c : Char} {s t : List Char} (h : MultiText s ('"' :: c :: t)) (hc : c ≠ '"') : ∃ s', s = '"' :: s' ∧ MultiText s' (c :: t) := by
  generalize ht : '"' :: c :: t = t' at h
  cases h with
  | nil => cases ht
  | char h1 => cases ht; exact absurd rfl h1
  | quote h1 h2 => cases ht; exact ⟨_, rfl, h2⟩
  | quotes => cases ht; exact absurd rfl hc
  | esc h =>
    obtain ⟨y, rfl⟩ := esc_head h
    cases ht
  | cont => cases ht

theorem multi_text {s t : List Char} (h : MultiText s t) (r : List Char) : multi (t ++ '"' :: '"' :: '"' :: r) = (s, '"' :: r) := by
  induction h with
  | nil =>
    rw [List.nil_append, multi.eq_def]
    simp
  | char h1 h2 _ ih =>
    rw [List.cons_append, multi.eq_def]
    dsimp only
    rw [if_neg h1, eatChar_plain true h2]
    dsimp only
    rw [ih]
    rfl
  | quote hc _ ih =>
    rw [List.cons_append, List.cons_append, multi.eq_def]
    dsimp only
    rw [if_pos rfl, if_neg hc]
    rw [List.cons_append] at ih
    rw [ih]
  | quotes hc _ ih =>
    rw [List.cons_append, List.cons_append, List.cons_append, multi.eq_def]
    dsimp only
    rw [if_pos rfl, if_pos rfl, if_neg hc]
    rw [List.cons_append] at ih
    rw [ih]
  | @esc a x s t h _ ih =>
    obtain ⟨y, rfl⟩ := esc_head h
    have e := eatChar_esc true h (t ++ '"' :: '"' :: '"' :: r)
    rw [List.append_assoc]
    rw [List.cons_append] at e ⊢
    rw [multi.eq_def]
    dsimp only
    rw [if_neg (by decide), e]
    dsimp only
    rw [ih]
  | @cont b s t hb ht _ ih =>
    have e : eatChar true ('\\' :: '\n' :: (b ++ (t ++ '"' :: '"' :: '"' :: r))) = ([], t ++ '"' :: '"' :: '"' :: r) := by
      have h0 : eatChar true ('\\' :: '\n' :: (b ++ (t ++ '"' :: '"' :: '"' :: r))) = ([], eatWs (eatNewline ('\n' :: (b ++ (t ++ '"' :: '"' :: '"' :: r))))) := rfl
      have hd : ∀ c, (t ++ '"' :: '"' :: '"' :: r).head? = some c → ¬Blank c ∧ c ≠ '\r' := by
        intro c hc
        cases t with
        | nil =>
          cases hc
          exact ⟨(by rintro (h | h) <;> cases h), by decide⟩
        | cons d t => cases hc; exact ht _ rfl
      have h1 : eatNewline ('\n' :: (b ++ (t ++ '"' :: '"' :: '"' :: r))) = b ++ (t ++ '"' :: '"' :: '"' :: r) := by
        rw [eatNewline, eat1_eq]
        split
        next h => exact h.symm
        next c q h =>
          rw [if_neg]
          · exact h.symm
          · rintro rfl
            cases b with
            | nil =>
              rw [List.nil_append] at h
              exact (hd '\r' (by rw [h]; rfl)).2 rfl
            | cons d b =>
              cases h
              rcases hb '\r' (List.mem_cons_self ..) with h | h <;> cases h
      rw [h0, h1, eatWs_blanks hb, eatWs_head fun c hc => (hd c hc).1]
    rw [List.cons_append, List.cons_append, List.append_assoc, multi.eq_def]
    dsimp only
    rw [if_neg (by decide), e]
    dsimp only
    rw [ih, List.nil_append]

theorem multiLit_text {s : List Char} (h : LitText s) (r : List Char) : multiLit (s ++ '\'' :: '\'' :: '\'' :: r) = (s, '\'' :: r) := by
  induction h with
  | nil =>
    rw [List.nil_append, multiLit.eq_def]
    simp
  | char h1 _ ih =>
    rw [List.cons_append, multiLit.eq_def]
    dsimp only
    rw [if_neg h1, ih]
  | quote hc _ ih =>
    rw [List.cons_append, List.cons_append, multiLit.eq_def]
    dsimp only
    rw [if_pos rfl, if_neg hc]
    rw [List.cons_append] at ih
    rw [ih]
  | quotes hc _ ih =>
    rw [List.cons_append, List.cons_append, List.cons_append, multiLit.eq_def]
    dsimp only
    rw [if_pos rfl, if_pos rfl, if_neg hc]
    rw [List.cons_append] at ih
    rw [ih]

theorem eatNewline_head {s : List Char} (h : ∀ c, s.head? = some c → ¬NL c) : eatNewline s = s := by
  rw [eatNewline, eat1_head fun e => h _ e (Or.inl rfl)]
  cases s with
  | nil => rfl
  | cons c s =>
    dsimp only
    rw [if_neg fun e => h c rfl (Or.inr e)]

theorem eatNewline_open {n t : List Char} (h : Opening n t) (q : Char) (hq : ¬NL q) (r : List Char) : eatNewline (n ++ (t ++ q :: r)) = t ++ q :: r := by
  have hd : ∀ c, (t ++ q :: r).head? = some c → t.head? = some c ∨ c = q := by
    intro c hc
    cases t with
    | nil => exact Or.inr (Option.some.inj hc).symm
    | cons d t => exact Or.inl hc
  rcases h with ⟨rfl, h⟩ | ⟨rfl, h⟩ | rfl
  · exact eatNewline_head fun c hc => (hd c hc).elim (h c) fun e => e ▸ hq
  · rw [List.singleton_append, eatNewline, eat1_eq]
    split
    next he => exact he.symm
    next c s he =>
      have : c ≠ '\r' := (hd c (by rw [he]; rfl)).elim (h c) fun e => by
        rw [e]; exact fun e' => hq (Or.inr e')
      rw [if_neg this, he]
  · change eatNewline ('\r' :: '\n' :: (t ++ q :: r)) = _
    rw [eatNewline, eat1_ne (by decide)]
    dsimp only
    rw [if_pos rfl, eat1_eq]

/-- All forms of a string are read as the string they denote. -/
theorem parseString_form (e1 e2 : Char) {s x : List Char} (h : StrForm s x) {b r : List Char} (hb : Blanks b) (hr : r.head? ≠ some '"' ∧ r.head? ≠ some '\'') :
    parseString true e1 e2 (b ++ (x ++ r)) = (s, r) := by
  rw [parseString, eatWs_blanks hb]
  cases h with
  | basic h =>
    rw [List.cons_append, List.append_assoc, List.singleton_append, eatWs_cons (by rintro (h | h) <;> cases h)]
    dsimp only
    rw [if_pos rfl, basic_text true h hr.1]
  | literal h =>
    rw [List.cons_append, List.append_assoc, List.singleton_append, eatWs_cons (by rintro (h | h) <;> cases h)]
    dsimp only
    rw [if_neg (by decide), if_pos rfl, literal_text true h hr.2]
  | @multi n t hn h =>
    rw [List.cons_append, eatWs_cons (by rintro (h | h) <;> cases h)]
    dsimp only
    rw [if_pos rfl]
    have e : n ++ (t ++ ['"', '"', '"']) ++ r = n ++ (t ++ '"' :: '"' :: '"' :: r) := by simp
    rw [List.cons_append, List.cons_append, e]
    simp only [basic, if_true, and_self]
    rw [eatNewline_open hn '"' (by rintro (h | h) <;> cases h), multi_text h r]
    dsimp only
    rw [eat1_eq]
  | @multiLit n hn h =>
    rw [List.cons_append, eatWs_cons (by rintro (h | h) <;> cases h)]
    dsimp only
    rw [if_neg (by decide), if_pos rfl]
    have e : n ++ (s ++ ['\'', '\'', '\'']) ++ r = n ++ (s ++ '\'' :: '\'' :: '\'' :: r) := by simp
    rw [List.cons_append, List.cons_append, e]
    simp only [literal, if_true, and_self]
    rw [eatNewline_open hn '\'' (by rintro (h | h) <;> cases h), multiLit_text h r]
    dsimp only
    rw [eat1_eq]

/-! ## Keys -/

theorem bareChar_range {c : Char} (h : BareChar c) : 45 ≤ c.toNat ∧ c.toNat ≤ 122 ∧ c ≠ '.' ∧ c ≠ '=' ∧ c ≠ '[' ∧ c ≠ ']' := by
  have le : ∀ a b : Char, a ≤ b → a.toNat ≤ b.toNat := fun a b h => h
  refine ⟨?_, ?_, ?_, ?_, ?_, ?_⟩
  · rcases h with ⟨h, -⟩ | ⟨h, -⟩ | ⟨h, -⟩ | rfl | rfl
    · exact Nat.le_trans (by decide) (le _ _ h)
    · exact Nat.le_trans (by decide) (le _ _ h)
    · exact Nat.le_trans (by decide) (le _ _ h)
    · decide
    · decide
  · rcases h with ⟨-, h⟩ | ⟨-, h⟩ | ⟨-, h⟩ | rfl | rfl
    · exact Nat.le_trans (le _ _ h) (by decide)
    · exact Nat.le_trans (le _ _ h) (by decide)
    · exact Nat.le_trans (le _ _ h) (by decide)
    · decide
    · decide
  all_goals
    rintro rfl
    revert h
    unfold BareChar
    decide

theorem bareChar_ne {c x : Char} (h : BareChar c) (hx : x.toNat < 45 ∨ 122 < x.toNat) : c ≠ x := by
  rintro rfl
  have := bareChar_range h
  omega

theorem bareChar_low {c : Char} (h : BareChar c) : low c = false := by
  have := bareChar_range h
  simp only [low, Bool.or_eq_false_iff, decide_eq_false_iff_not]
  omega

theorem bareChar_nl {c : Char} (h : BareChar c) : ¬NL c := by
  rintro (rfl | rfl)
  · exact bareChar_ne h (by decide) rfl
  · exact bareChar_ne h (by decide) rfl

theorem bareChar_blank {c : Char} (h : BareChar c) : ¬Blank c := by
  rintro (rfl | rfl)
  · exact bareChar_ne h (by decide) rfl
  · exact bareChar_ne h (by decide) rfl

theorem stripEnd_key {k b : List Char} (hk : BareKey k) (hb : Blanks b) : stripEnd (k ++ b) = k := by
  have h1 : (k ++ b).reverse.dropWhile low = k.reverse := by
    rw [List.reverse_append, dropWhile_all, dropWhile_head]
    · intro c hc
      refine bareChar_low (hk.2 c ?_)
      rw [List.head?_reverse] at hc
      exact List.mem_of_getLast? hc
    · intro c hc
      rcases hb c (List.mem_reverse.1 hc) with rfl | rfl <;> rfl
  rw [stripEnd, h1, List.reverse_reverse]
  rcases k with _ | ⟨c, k⟩
  · exact absurd rfl hk.1
  · rfl

/-- A key is read up to one of the two characters at which it ends; only a quoted key stops before the blanks. -/
theorem parseString_key {e1 e2 : Char} (he1 : ¬BareChar e1 ∧ ¬Blank e1) (he2 : ¬BareChar e2 ∧ ¬Blank e2) {k kt : List Char} (h : KeyText k kt) {b r : List Char} {e : Char}
    (hb : Blanks b) (he : e = e1 ∨ e = e2) (hq : e ≠ '"' ∧ e ≠ '\'') (hnb : ¬Blank e) :
    ∃ b', Blanks b' ∧ (b = [] → b' = []) ∧ parseString false e1 e2 (kt ++ (b ++ e :: r)) = (k, b' ++ e :: r) := by
  have hh : (b ++ e :: r).head? ≠ some '"' ∧ (b ++ e :: r).head? ≠ some '\'' := by
    cases b with
    | nil => exact ⟨by simpa using hq.1, by simpa using hq.2⟩
    | cons c b =>
      rcases hb c (List.mem_cons_self ..) with rfl | rfl <;> exact ⟨by simp, by simp⟩
  cases h with
  | bare hk =>
    refine ⟨[], fun c hc => (List.not_mem_nil hc).elim, fun _ => rfl, ?_⟩
    have hp : ∀ c ∈ k ++ b, (!(isNl c || c == e1 || c == e2)) = true := by
      intro c hc
      have hc' : BareChar c ∨ Blank c := (List.mem_append.1 hc).imp (hk.2 c) (hb c)
      have n1 : c ≠ e1 := by rintro rfl; exact hc'.elim he1.1 he1.2
      have n2 : c ≠ e2 := by rintro rfl; exact hc'.elim he2.1 he2.2
      have n3 : ¬NL c := fun h => hc'.elim (fun h' => bareChar_nl h' h) fun h' => by
        rcases h' with rfl | rfl <;> rcases h with h | h <;> cases h
      simp [isNl_false n3, n1, n2]
    have hpe : (!(isNl e || e == e1 || e == e2)) = false := by
      rcases he with rfl | rfl <;> simp
    have hbare : bare e1 e2 (k ++ (b ++ e :: r)) = (k, e :: r) := by
      rw [bare, ← List.append_assoc]
      rw [takeWhile_all hp, dropWhile_all hp, takeWhile_head (fun d hd => by cases hd; exact hpe), dropWhile_head (fun d hd => by cases hd; exact hpe), List.append_nil,
        stripEnd_key hk hb]
    rw [parseString, eatWs_head]
    · rcases hk' : k with _ | ⟨c, k'⟩
      · exact absurd hk' hk.1
      · have hc : BareChar c := hk.2 c (by rw [hk']; exact List.mem_cons_self ..)
        rw [List.cons_append]
        dsimp only
        rw [if_neg (bareChar_ne hc (by decide)), if_neg (bareChar_ne hc (by decide)), ← List.cons_append, ← hk', hbare]
        rfl
    · intro c hc
      rcases hk' : k with _ | ⟨d, k'⟩
      · exact absurd hk' hk.1
      · rw [hk', List.cons_append] at hc
        cases hc
        exact bareChar_blank (hk.2 c (by rw [hk']; exact List.mem_cons_self ..))
  | basic _ h =>
    refine ⟨b, hb, id, ?_⟩
    rw [List.cons_append, List.append_assoc, List.singleton_append, parseString, eatWs_cons (by rintro (h | h) <;> cases h)]
    dsimp only
    rw [if_pos rfl, basic_text false h hh.1]
  | literal _ h =>
    refine ⟨b, hb, id, ?_⟩
    rw [List.cons_append, List.append_assoc, List.singleton_append, parseString, eatWs_cons (by rintro (h | h) <;> cases h)]
    dsimp only
    rw [if_neg (by decide), if_pos rfl, literal_text false h hh.2]

theorem key_cstr {k kt : List Char} (h : KeyText k kt) : cstr k = k := by
  cases h with
  | bare hk => exact Json.cstr_eq fun hm => bareChar_ne (hk.2 _ hm) (by decide) rfl
  | basic h => exact Json.cstr_eq h
  | literal h => exact Json.cstr_eq h

/-- The first character of a key. -/
theorem key_head {k kt : List Char} (h : KeyText k kt) : ∃ c t, kt = c :: t ∧ (BareChar c ∨ c = '"' ∨ c = '\'') := by
  cases h with
  | bare hk =>
    rcases k with _ | ⟨c, k⟩
    · exact absurd rfl hk.1
    · exact ⟨c, k, rfl, Or.inl (hk.2 c (List.mem_cons_self ..))⟩
  | basic => exact ⟨_, _, rfl, Or.inr (Or.inl rfl)⟩
  | literal => exact ⟨_, _, rfl, Or.inr (Or.inr rfl)⟩

/-! ## Numbers and booleans -/

theorem digit_bare {c : Char} (h : '0' ≤ c ∧ c ≤ '9') : BareChar c := Or.inr (Or.inr (Or.inl h))

theorem bareChar_space {c : Char} (h : BareChar c) : isSpace c = false := by
  simp [isSpace, bareChar_ne h (x := ' ') (by decide), bareChar_ne h (x := '\t') (by decide), bareChar_ne h (x := '\n') (by decide), bareChar_ne h (x := '\x0b') (by decide),
    bareChar_ne h (x := '\x0c') (by decide), bareChar_ne h (x := '\r') (by decide)]

theorem stops_digit {r : List Char} (h : Stops r) : ∀ c, r.head? = some c → isDigit c = false := by
  intro c hc
  rcases h c hc with rfl | rfl | rfl | rfl | (rfl | rfl) | (rfl | rfl) <;> rfl

theorem digits_split {ds r : List Char} (hd : ∀ c ∈ ds, '0' ≤ c ∧ c ≤ '9') (hr : Stops r) : (ds ++ r).takeWhile isDigit = ds ∧ (ds ++ r).dropWhile isDigit = r := by
  have hp : ∀ c ∈ ds, isDigit c = true := fun c hc => (Json.digit_facts (hd c hc)).1
  rw [takeWhile_all hp, dropWhile_all hp, takeWhile_head (stops_digit hr), dropWhile_head (stops_digit hr), List.append_nil]
  exact ⟨rfl, rfl⟩

theorem decNum_digits {ds : List Char} (hd : ∀ c ∈ ds, '0' ≤ c ∧ c ≤ '9') : decNum 0 ds = decVal ds := by
  have := Json.decNum_foldl ds hd Json.nil_ws 0
  rwa [List.append_nil] at this

theorem dropWhile_space {b : List Char} (hb : Blanks b) (s : List Char) : (b ++ s).dropWhile isSpace = s.dropWhile isSpace :=
  dropWhile_all fun c hc => isSpace_blank (Or.inl (hb c hc))

theorem getInt_form {i : Int} {x b r : List Char} (h : Int64Form i x) (hb : Blanks b) (hr : Stops r) : getInt (b ++ (x ++ r)) = some (i, r) := by
  obtain ⟨h, h1, h2⟩ := h
  rw [getInt, dropWhile_space hb]
  cases h with
  | pos hne hd =>
    rcases hx : x with _ | ⟨c, x'⟩
    · exact absurd hx hne
    · have hc := hd c (by rw [hx]; exact List.mem_cons_self ..)
      have f := Json.digit_facts hc
      obtain ⟨e1, e2⟩ := digits_split hd hr
      rw [hx] at e1 e2
      rw [List.cons_append] at e1 e2
      rw [List.cons_append, List.dropWhile_cons, if_neg (by simp [f.2.2.1])]
      dsimp only
      rw [splitSign, if_neg f.2.2.2.2.2.2.2.2.1, if_neg f.2.2.2.2.2.2.2.2.2.1]
      dsimp only
      rw [e1, e2, if_neg (by simp), ← hx, decNum_digits hd, if_neg (by decide : ¬(false = true)), if_neg (by omega), if_neg (by omega)]
  | @plus ds hne hd =>
    obtain ⟨e1, e2⟩ := digits_split hd hr
    rw [List.cons_append, List.dropWhile_cons, if_neg (by decide)]
    dsimp only
    rw [show splitSign ('+' :: (ds ++ r)) = (false, ds ++ r) from rfl]
    dsimp only
    rw [e1, e2, if_neg hne, decNum_digits hd, if_neg (by decide : ¬(false = true)), if_neg (by omega), if_neg (by omega)]
  | @neg ds hne hd =>
    obtain ⟨e1, e2⟩ := digits_split hd hr
    rw [List.cons_append, List.dropWhile_cons, if_neg (by decide)]
    dsimp only
    rw [show splitSign ('-' :: (ds ++ r)) = (true, ds ++ r) from rfl]
    dsimp only
    rw [e1, e2, if_neg hne, decNum_digits hd, if_pos rfl, if_neg (by omega), if_neg (by omega)]

/-- The first character of a number. -/
def NumHead (c : Char) : Prop := BareChar c ∨ c = '+' ∨ c = '.'

theorem numHead_facts {c : Char} (h : NumHead c) : isNl c = false ∧ c ≠ ',' ∧ c ≠ '"' ∧ isSpace c = false ∧ c ≠ '#' ∧ c ≠ ']' := by
  rcases h with h | rfl | rfl
  · exact ⟨isNl_false (bareChar_nl h), bareChar_ne h (by decide), bareChar_ne h (by decide), bareChar_space h, bareChar_ne h (by decide), (bareChar_range h).2.2.2.2.2⟩
  · decide
  · decide

theorem intForm_head {i : Int} {x : List Char} (h : IntForm i x) : ∃ c y, x = c :: y ∧ NumHead c := by
  cases h with
  | pos hne hd =>
    rcases x with _ | ⟨c, y⟩
    · exact absurd rfl hne
    · exact ⟨c, y, rfl, Or.inl (digit_bare (hd c (List.mem_cons_self ..)))⟩
  | plus => exact ⟨_, _, rfl, Or.inr (Or.inl rfl)⟩
  | neg => exact ⟨_, _, rfl, Or.inl (Or.inr (Or.inr (Or.inr (Or.inr rfl))))⟩

theorem parseNumber_form {α : Type} {get : List Char → Option (α × List Char)} {old v : α} {x b r : List Char} (hx : ∃ c y, x = c :: y ∧ NumHead c) (hb : Blanks b)
    (hg : get (b ++ (x ++ r)) = some (v, r)) : parseNumber get old (b ++ (x ++ r)) = .ok (v, r) := by
  obtain ⟨c, y, rfl, hc⟩ := hx
  obtain ⟨f1, f2, f3, -⟩ := numHead_facts hc
  rw [parseNumber.eq_def, hg]
  dsimp only
  cases b with
  | nil =>
    rw [List.nil_append, List.cons_append]
    dsimp only
    rw [if_neg (by simp [f1, f2]), if_neg f3]
  | cons d b =>
    rw [List.cons_append]
    dsimp only
    have hd := hb d (List.mem_cons_self ..)
    rcases hd with rfl | rfl <;> rw [if_neg (by decide), if_neg (by decide)]

theorem getDbl_form {fp : FP D} {d : D} {x b r : List Char} (h : fp.Reads d x) (hb : Blanks b) (hr : Stops r) : getDbl fp (b ++ (x ++ r)) = some (d, r) := by
  obtain ⟨⟨c, y, rfl, hc⟩, h⟩ := h
  have f := numHead_facts hc
  rw [getDbl, dropWhile_space hb, List.cons_append, List.dropWhile_cons, if_neg (by simp [f.2.2.2.1])]
  dsimp only
  rw [← List.cons_append, h r hr]

theorem parseBool_form {v : Bool} {b r : List Char} (hb : Blanks b) : ∃ q, (∀ c ∈ q, BareChar c) ∧ parseBool (b ++ ((bif v then "true".toList else "false".toList) ++ r)) = (v, q ++ r) := by
  rw [parseBool, eatWs_blanks hb]
  cases v
  · exact ⟨"alse".toList, by
      intro c hc
      have : c = 'a' ∨ c = 'l' ∨ c = 's' ∨ c = 'e' := by
        rw [show "alse".toList = ['a', 'l', 's', 'e'] from rfl] at hc
        simpa using hc
      rcases this with rfl | rfl | rfl | rfl <;> (unfold BareChar; decide), rfl⟩
  · exact ⟨[], fun c hc => (List.not_mem_nil hc).elim, rfl⟩

end Verif.Toml
