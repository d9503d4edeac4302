import Verif.Xml.Ends

/-!
# The XML parser on well-formed texts (C90)
-/

namespace Verif.Xml

open Verif.Json (isSpace isDigit AllWs hexDigits decVal cstr cstr_eq hexNum decNum hexVal splitSign dropHexPrefix outputUnicode byte byte_lt or_add hex_facts digit_facts decNum_foldl
  outputUnicode_utf8 eatWs_append eatWs_cons nil_ws)

/-! ## Patterns -/

theorem drop_ws {w s : List Char} (hw : AllWs w) (hs : ∀ c q, s = c :: q → isSpace c = false) : (w ++ s).dropWhile isSpace = s := by
  have := eatWs_append hw s
  rw [Json.eatWs, Json.eatWs] at this
  rw [this]
  cases s with
  | nil => rfl
  | cons c q => exact eatWs_cons (hs c q rfl) q

theorem lit_append (p r : List Char) : lit p (p ++ r) = .ok r := by
  induction p with
  | nil => rw [lit]; rfl
  | cons a p ih => rw [List.cons_append, lit, if_pos rfl, ih]

/-- A match of a pattern with a star. -/
theorem matchP_found {pat pre post body rest w : List Char} (hp : pat.takeWhile (· != '*') = pre) (hq : pat.dropWhile (· != '*') = '*' :: post) (hw : AllWs w)
    (hs : ∀ c q, pre ++ (body ++ (post ++ rest)) = c :: q → isSpace c = false) (hpost : post ≠ []) (hscan : scan post post (body ++ (post ++ rest)) = ([], body ++ post, rest)) :
    matchP pat (w ++ (pre ++ (body ++ (post ++ rest)))) = ⟨true, body, rest⟩ := by
  rw [matchP]
  dsimp only
  rw [drop_ws hw hs, hp, lit_append, hq]
  dsimp only
  rw [if_neg (by simp [hpost]), hscan, if_pos rfl]
  simp

/-- A text that differs from the pattern before the star. -/
theorem matchP_differs {pat s : List Char} (hs : ∀ c q, s = c :: q → isSpace c = false) (h : lit (pat.takeWhile (· != '*')) s = .bad) : matchP pat s = ⟨false, [], s⟩ := by
  rw [matchP]
  dsimp only
  rw [show s.dropWhile isSpace = s from drop_ws (w := []) nil_ws hs, h]

theorem scan_one {p : Char} {body rest : List Char} (h : p ∉ body) : scan [p] [p] (body ++ ([p] ++ rest)) = ([], body ++ [p], rest) := by
  induction body with
  | nil => rw [List.nil_append, List.singleton_append, scan, if_pos rfl, scan]; rfl
  | cons c body ih =>
    rw [List.cons_append, scan, if_neg (fun e => h (by rw [e]; exact List.mem_cons_self ..)), ih fun hc => h (List.mem_cons_of_mem _ hc)]
    rfl

theorem scan_comment {body : List Char} (h : CommentText body) (rest : List Char) : scan "-->".toList "-->".toList (body ++ ("-->".toList ++ rest)) = ([], body ++ "-->".toList, rest) := by
  have e : "-->".toList = ['-', '-', '>'] := rfl
  rw [e]
  induction h with
  | nil => simp [scan]
  | char hc _ ih => rw [List.cons_append, scan, if_neg hc, ih]; rfl
  | dash hc _ ih => rw [List.cons_append, List.cons_append, scan, if_pos rfl, scan, if_neg hc, ih]; rfl

theorem scan_decl' {body : List Char} (h : '>' ∉ body) (t : List Char) : ∀ cur, (cur = ['?', '>'] ∨ cur = ['>']) → ∃ cur', (cur' = ['?', '>'] ∨ cur' = ['>']) ∧ (body.getLast? ≠ none → body.getLast? ≠ some '?' → cur' = ['?', '>']) ∧
    (body = [] → cur' = cur) ∧ scan ['?', '>'] cur (body ++ t) = ((scan ['?', '>'] cur' t).1, body ++ (scan ['?', '>'] cur' t).2.1, (scan ['?', '>'] cur' t).2.2) := by
  induction body with
  | nil => intro cur hc; exact ⟨cur, hc, fun h => absurd rfl h, fun _ => rfl, rfl⟩
  | cons c body ih =>
    intro cur hc
    have hc' : c ≠ '>' := fun e => h (by rw [e]; exact List.mem_cons_self ..)
    have ih := ih fun hm => h (List.mem_cons_of_mem _ hm)
    have key : ∃ nxt, (nxt = ['?', '>'] ∨ nxt = ['>']) ∧ (c ≠ '?' → nxt = ['?', '>']) ∧ scan ['?', '>'] cur (c :: (body ++ t)) =
        ((scan ['?', '>'] nxt (body ++ t)).1, c :: (scan ['?', '>'] nxt (body ++ t)).2.1, (scan ['?', '>'] nxt (body ++ t)).2.2) := by
      rcases hc with rfl | rfl
      · by_cases hq : c = '?'
        · exact ⟨['>'], .inr rfl, fun h => absurd hq h, by rw [scan, if_pos hq]⟩
        · exact ⟨['?', '>'], .inl rfl, fun _ => rfl, by rw [scan, if_neg hq]⟩
      · exact ⟨['?', '>'], .inl rfl, fun _ => rfl, by rw [scan, if_neg hc']⟩
    obtain ⟨nxt, h1, h2, h3⟩ := key
    obtain ⟨cur', k1, k2, k3, k4⟩ := ih nxt h1
    refine ⟨cur', k1, ?_, fun e => (by cases e), ?_⟩
    · intro _ hl
      cases body with
      | nil =>
        rw [k3 rfl]
        apply h2
        rintro rfl
        exact hl rfl
      | cons d body =>
        rw [List.getLast?_cons_cons] at hl
        exact k2 (by simp [List.getLast?_eq_none_iff]) hl
    · rw [List.cons_append, h3, k4]
      rfl

theorem scan_decl {body : List Char} (h : '>' ∉ body) (hn : body ≠ []) (hl : body.getLast? ≠ some '?') (rest : List Char) :
    scan ['?', '>'] ['?', '>'] (body ++ (['?', '>'] ++ rest)) = ([], body ++ ['?', '>'], rest) := by
  obtain ⟨cur', -, k2, -, k4⟩ := scan_decl' h (['?', '>'] ++ rest) _ (.inl rfl)
  rw [k2 (by simp [List.getLast?_eq_none_iff, hn]) hl] at k4
  rw [k4]
  simp [scan]

/-! ## Names and blank space -/

theorem ws_low {w : List Char} (h : AllWs w) : ∀ c ∈ w, low c = true := by
  intro c hc
  rcases h c hc with rfl | rfl | rfl | rfl <;> rfl

theorem char_le_nat {a b : Char} : a ≤ b ↔ a.toNat ≤ b.toNat := by
  rw [Char.le_def, UInt32.le_iff_toNat_le]; rfl

theorem name_char {n : List Char} (h : NameOk n) {c : Char} (hc : c ∈ n) : isSpace c = false ∧ c ∉ special ∧ 33 ≤ c.toNat := by
  have h1 := h.1 c hc
  have h2 : 33 ≤ c.toNat := char_le_nat.1 h1.1
  refine ⟨?_, h1.2, h2⟩
  rw [isSpace, Bool.eq_false_iff]
  intro e
  simp only [Bool.or_eq_true, beq_iff_eq] at e
  rcases e with ((((rfl | rfl) | rfl) | rfl) | rfl) | rfl <;> exact absurd h2 (by decide)

theorem name_ne {n : List Char} (h : NameOk n) : n ≠ [] := by
  obtain ⟨-, c, e, -⟩ := h
  rintro rfl
  cases e

theorem name_last {n : List Char} (h : NameOk n) : ∃ c, n.getLast? = some c ∧ low c = false := by
  obtain ⟨c, e, hc⟩ := h.2
  refine ⟨c, e, ?_⟩
  have := (name_char h (List.mem_of_getLast? e)).2.2
  rw [low, Bool.or_eq_false_iff]
  exact ⟨decide_eq_false (by omega), decide_eq_false (by omega)⟩

theorem rtrim_append {x w : List Char} (hx : ∃ c, x.getLast? = some c ∧ low c = false) (hw : ∀ c ∈ w, low c = true) : rtrim (x ++ w) = x := by
  obtain ⟨c, hc, hl⟩ := hx
  cases x with
  | nil => cases hc
  | cons a x =>
    rw [List.cons_append, rtrim, List.reverse_append]
    congr 1
    have : ∀ l r : List Char, (∀ c ∈ l, low c = true) → (l ++ r).dropWhile low = r.dropWhile low := by
      intro l r h
      induction l with
      | nil => rfl
      | cons b l ih => rw [List.cons_append, List.dropWhile_cons, if_pos (h b (List.mem_cons_self ..)), ih fun c hc => h c (List.mem_cons_of_mem _ hc)]
    rw [this _ _ fun c hc => hw c (List.mem_reverse.1 hc)]
    cases hr : x.reverse with
    | nil => rw [List.reverse_eq_nil_iff.1 hr]; rfl
    | cons b y =>
      have e : x = y.reverse ++ [b] := by rw [← List.reverse_reverse x, hr, List.reverse_cons]
      have : c = b := by
        rw [e] at hc
        simpa [List.getLast?_cons] using hc.symm
      rw [List.dropWhile_cons, if_neg (by rw [← this, hl]; decide), e, List.reverse_cons]

/-- Blank space behind a text is removed, and nothing else. -/
theorem trim_append {x w : List Char} (hx : ∃ c, x.getLast? = some c ∧ low c = false) (hw : ∀ c ∈ w, low c = true) (hh : ∀ c q, x = c :: q → 33 ≤ c.toNat) (hz : '\x00' ∉ x) :
    trim (x ++ w) = x := by
  rw [trim, rtrim_append hx hw]
  cases x with
  | nil => rfl
  | cons c q =>
    have := hh c q rfl
    rw [List.dropWhile_cons, if_neg (by simp; omega), cstr_eq hz]

theorem name_zero {n : List Char} (h : NameOk n) : '\x00' ∉ n := fun hc => absurd (name_char h hc).2.2 (by decide)

theorem trim_name {n w : List Char} (h : NameOk n) (hw : AllWs w) : trim (n ++ w) = n :=
  trim_append (name_last h) (ws_low hw) (fun c q e => (name_char h (by rw [e]; exact List.mem_cons_self ..)).2.2) (name_zero h)

theorem span_name {n t : List Char} (h : ∀ c ∈ n, isSpace c = false) (ht : ∀ c q, t = c :: q → isSpace c = true) :
    (n ++ t).takeWhile (!isSpace ·) = n ∧ (n ++ t).dropWhile (!isSpace ·) = t := by
  induction n with
  | nil =>
    cases t with
    | nil => exact ⟨rfl, rfl⟩
    | cons c q => simp [ht c q rfl]
  | cons a n ih =>
    have ha := h a (List.mem_cons_self ..)
    obtain ⟨h1, h2⟩ := ih fun c hc => h c (List.mem_cons_of_mem _ hc)
    simp [ha, h1, h2]

/-! ## Attributes -/

theorem dropWhile_idem {p : Char → Bool} (s : List Char) : (s.dropWhile p).dropWhile p = s.dropWhile p := by
  cases h : s.dropWhile p with
  | nil => rfl
  | cons c q => rw [List.dropWhile_cons, if_neg (by rw [head_dropWhile h]; decide)]

theorem matchP_drop (pat s : List Char) : matchP pat (s.dropWhile isSpace) = matchP pat s := by
  rw [matchP, matchP, dropWhile_idem]

theorem addAttr_new {l : List (List Char × List Char)} {n v : List Char} (h : n ∉ l.map (·.1)) : addAttr l n v = l ++ [(n, v)] := by rw [addAttr, if_neg h]

theorem attrLoop_drop {n : Nat} {l : List (List Char × List Char)} {t : List Char} (h : t = [] ∨ t.dropWhile isSpace ≠ []) : attrLoop n l t = attrLoop n l (t.dropWhile isSpace) := by
  rcases h with rfl | h
  · rfl
  · cases n with
    | zero => rw [attrLoop, attrLoop]
    | succ n =>
      cases t with
      | nil => rfl
      | cons a q =>
        have hm := matchP_drop "*=".toList (a :: q)
        cases e : (a :: q).dropWhile isSpace with
        | nil => exact absurd e h
        | cons b r => rw [attrLoop, attrLoop, ← e, hm]

theorem dropWhile_all {p : Char → Bool} {s : List Char} (h : s.dropWhile p = []) : ∀ c ∈ s, p c = true := by
  induction s with
  | nil => intro c hc; cases hc
  | cons a s ih =>
    rw [List.dropWhile_cons] at h
    split at h
    · rename_i ha
      intro c hc
      rcases List.mem_cons.1 hc with rfl | hc
      · exact ha
      · exact ih h c hc
    · cases h

theorem attrs_drop {strict : Bool} {l : List (List Char × List Char)} {t : List Char} (h : Attrs strict l t) : t = [] ∨ t.dropWhile isSpace ≠ [] := by
  cases h with
  | nil => exact .inl rfl
  | cons hw1 hne hnm hw2 hw3 hv ht =>
    right
    intro e
    have := dropWhile_all e '"' (by simp)
    cases this

theorem attrs_ok {strict : Bool} {l : List (List Char × List Char)} {t : List Char} (h : Attrs strict l t) : ∀ (n : Nat) (l0 l' : List (List Char × List Char)),
    ((l0 ++ l).map (·.1)).Nodup → attrLoop n l0 (t.dropWhile isSpace) = some l' → l' = l0 ++ l := by
  induction h with
  | nil =>
    intro n l0 l' _ e
    cases n with
    | zero => cases e
    | succ n => rw [List.append_nil]; rw [List.dropWhile_nil, attrLoop] at e; exact (Option.some.inj e).symm
  | @cons nm v w1 w2 w3 t l hw1 hne hnm hw2 hw3 hv ht ih =>
    intro n l0 l' hd e
    have hfst : ∀ c q, nm ++ (w2 ++ '=' :: (w3 ++ '"' :: (v ++ '"' :: t))) = c :: q → isSpace c = false := by
      intro c q ec
      cases nm with
      | nil => exact absurd rfl (name_ne hnm)
      | cons a nm => exact (name_char hnm (by rw [← (List.cons.inj ec).1]; exact List.mem_cons_self ..)).1
    rw [drop_ws hw1 hfst] at e
    have m1 : matchP "*=".toList (nm ++ (w2 ++ '=' :: (w3 ++ '"' :: (v ++ '"' :: t)))) = ⟨true, nm ++ w2, w3 ++ '"' :: (v ++ '"' :: t)⟩ := by
      have hb : '=' ∉ nm ++ w2 := by
        rw [List.mem_append]
        rintro (hm | hm)
        · exact (name_char hnm hm).2.1 (by decide)
        · rcases hw2 _ hm with h | h | h | h <;> exact absurd h (by decide)
      have := matchP_found (pat := "*=".toList) (pre := []) (post := ['=']) (body := nm ++ w2) (rest := w3 ++ '"' :: (v ++ '"' :: t)) (w := []) rfl rfl nil_ws
        (fun c q ec => hfst c q (by simpa using ec)) (by decide) (scan_one hb)
      simpa using this
    have m2 : matchP "\"*\"".toList (w3 ++ '"' :: (v ++ '"' :: t)) = ⟨true, v, t⟩ := by
      have := matchP_found (pat := "\"*\"".toList) (pre := ['"']) (post := ['"']) (body := v) (rest := t) (w := w3) rfl rfl hw3
        (fun c q ec => by rw [← (List.cons.inj ec).1]; rfl) (by decide) (scan_one fun hm => (hv _ hm).1 rfl)
      simpa using this
    cases n with
    | zero => rw [attrLoop] at e; cases e
    | succ n =>
      cases hc : nm ++ (w2 ++ '=' :: (w3 ++ '"' :: (v ++ '"' :: t))) with
      | nil =>
        have := congrArg List.length hc
        simp at this
      | cons a q =>
        rw [hc, attrLoop, ← hc, m1] at e
        dsimp only at e
        rw [m2, if_pos rfl] at e
        dsimp only at e
        rw [if_pos rfl, trim_name hnm hw2] at e
        rw [List.map_append, List.map_cons] at hd
        have hnot : nm ∉ l0.map (·.1) := fun hm => (List.nodup_append.1 hd).2.2 _ hm _ (List.mem_cons_self ..) rfl
        rw [addAttr_new hnot] at e
        have hd2 : ((l0 ++ [(nm, v)] ++ l).map (·.1)).Nodup := by simpa using hd
        rw [attrLoop_drop (attrs_drop ht)] at e
        rw [ih n _ _ hd2 e, List.append_assoc]
        rfl

/-- The characters of a list of attributes. -/
theorem attrs_chars {strict : Bool} {l : List (List Char × List Char)} {t : List Char} (h : Attrs strict l t) :
    (∀ c ∈ t, c ≠ '>' ∧ c ≠ '\x00') ∧ (t = [] ∨ t.getLast? = some '"') ∧ ∀ c q, t = c :: q → isSpace c = true := by
  induction h with
  | nil => exact ⟨fun c hc => (by cases hc), .inl rfl, fun _ _ e => (by cases e)⟩
  | @cons nm v w1 w2 w3 t l hw1 hne hnm hw2 hw3 hv ht ih =>
    have hw : ∀ {w : List Char}, AllWs w → ∀ c ∈ w, c ≠ '>' ∧ c ≠ '\x00' := by
      intro w h c hc
      rcases h c hc with rfl | rfl | rfl | rfl <;> decide
    refine ⟨?_, .inr ?_, ?_⟩
    · intro c hc
      simp only [List.mem_append, List.mem_cons] at hc
      rcases hc with hc | hc | hc | rfl | hc | rfl | hc | rfl | hc
      · exact hw hw1 c hc
      · exact ⟨fun e => (name_char hnm hc).2.1 (by rw [e]; decide), fun e => name_zero hnm (by rw [← e]; exact hc)⟩
      · exact hw hw2 c hc
      · decide
      · exact hw hw3 c hc
      · decide
      · exact ⟨(hv c hc).2.1, (hv c hc).2.2.1⟩
      · decide
      · exact ih.1 c hc
    · rcases ih.2.1 with rfl | e
      · simp [List.getLast?_append, List.getLast?_cons]
      · simp [List.getLast?_append, List.getLast?_cons, e]
    · intro c q e
      cases w1 with
      | nil => exact absurd rfl hne
      | cons a w1 => rw [← (List.cons.inj e).1]; exact hw1.space (List.mem_cons_self ..)

/-- The inside of a tag. -/
theorem parseAttribute_ok {strict : Bool} {name ta w : List Char} {attrs : List (List Char × List Char)} (hn : NameOk name) (ha : Attrs strict attrs ta) (hd : (attrs.map (·.1)).Nodup)
    (hw : AllWs w) : parseAttribute [] (name ++ (ta ++ w)) = some (name, attrs) := by
  obtain ⟨a, e⟩ := parseAttribute_ends [] (name ++ (ta ++ w))
  rw [e]
  have hc := attrs_chars ha
  have ht : trim (name ++ (ta ++ w)) = name ++ ta := by
    rw [← List.append_assoc]
    refine trim_append ?_ (ws_low hw) ?_ ?_
    · rcases hc.2.1 with rfl | hl
      · rw [List.append_nil]; exact name_last hn
      · exact ⟨'"', by rw [List.getLast?_append, hl]; rfl, by decide⟩
    · intro c q ec
      cases name with
      | nil => exact absurd rfl (name_ne hn)
      | cons b name => rw [← (List.cons.inj ec).1]; exact (name_char hn (List.mem_cons_self ..)).2.2
    · rw [List.mem_append]
      rintro (hm | hm)
      · exact name_zero hn hm
      · exact (hc.1 _ hm).2 rfl
  rw [parseAttribute, ht] at e
  obtain ⟨h1, h2⟩ := span_name (t := ta) (fun c hc => (name_char hn hc).1) hc.2.2
  rw [h1, h2] at e
  cases hl : attrLoop ((ta.dropWhile isSpace).length + 1) [] (ta.dropWhile isSpace) with
  | none => rw [hl] at e; cases e
  | some l' =>
    rw [hl] at e
    rw [← Option.some.inj e, attrs_ok ha _ [] l' (by simpa using hd) hl]
    rfl

/-! ## References -/

theorem outputUnicode_code {n : Nat} (h : n < 0x10FFFF) : outputUnicode (n : Int) = utf8 n := by
  rw [utf8]
  split
  · rename_i h1; exact outputUnicode_utf8 h1
  · rename_i h1
    rw [outputUnicode, if_neg (by omega)]
    dsimp only
    rw [Int.toNat_natCast]
    have m1 : n &&& 0x3F = n % 64 := Nat.and_two_pow_sub_one_eq_mod n 6
    have m2 : (n &&& 0x0FC0) >>> 6 = n / 64 % 64 := by
      rw [Nat.shiftRight_and_distrib, show 0x0FC0 >>> 6 = 2 ^ 6 - 1 from rfl, Nat.and_two_pow_sub_one_eq_mod, Nat.shiftRight_eq_div_pow]
    have m3 : (n &&& 0x03F000) >>> 12 = n / 4096 % 64 := by
      rw [Nat.shiftRight_and_distrib, show 0x03F000 >>> 12 = 2 ^ 6 - 1 from rfl, Nat.and_two_pow_sub_one_eq_mod, Nat.shiftRight_eq_div_pow]
    have o1 : ∀ b, b < 64 → 0x80 ||| b = 128 + b := fun b hb => or_add (a := 2) (k := 6) hb
    rw [if_neg (by omega), if_neg (by omega), if_pos h, m1, m2, m3, o1 _ (by omega), o1 _ (by omega), o1 _ (by omega), Nat.shiftRight_eq_div_pow,
      show (0xF0 ||| n / 2 ^ 18) = 240 + n / 262144 from or_add (a := 30) (k := 3) (by omega), byte_lt (by omega), byte_lt (by omega), byte_lt (by omega), byte_lt (by omega)]

theorem toInt_small {n : Nat} (h : n < 0x10FFFF) : toInt (clamp false n) = n := by
  have : clamp false n = n := by
    rw [clamp, if_neg (by decide)]
    omega
  rw [this, toInt]
  omega

theorem hexNum_val (ds : List (Char × Nat)) (h : ∀ p ∈ ds, p ∈ hexDigits) (acc : Nat) : hexNum acc (ds.map (·.1)) = ds.foldl (fun acc p => 16 * acc + p.2) acc := by
  induction ds generalizing acc with
  | nil => rfl
  | cons p ds ih =>
    rw [List.map_cons, hexNum, (hex_facts p (h p (List.mem_cons_self ..))).1]
    exact ih (fun q hq => h q (List.mem_cons_of_mem _ hq)) _

theorem strtol16_val {ds : List (Char × Nat)} (h : ∀ p ∈ ds, p ∈ hexDigits) : strtol16 (ds.map (·.1)) = clamp false (hexNumVal ds) := by
  have hz : '\x00' ∉ ds.map (·.1) := by
    rw [List.mem_map]
    rintro ⟨p, hp, e⟩
    have := (hex_facts p (h p hp)).1
    rw [e] at this
    cases this
  rw [strtol16, cstr_eq hz]
  cases ds with
  | nil => rfl
  | cons p ds =>
    obtain ⟨h1, h2, h3, h4, -⟩ := hex_facts p (h p (List.mem_cons_self ..))
    rw [List.map_cons, List.dropWhile_cons, if_neg (by rw [h2]; decide), splitSign, if_neg h3, if_neg h4]
    have : dropHexPrefix (p.1 :: ds.map (·.1)) = p.1 :: ds.map (·.1) := by
      cases ds with
      | nil => rfl
      | cons q ds =>
        obtain ⟨-, -, -, -, h5, h6, -⟩ := hex_facts q (h q (List.mem_cons_of_mem _ (List.mem_cons_self ..)))
        cases ds with
        | nil => rfl
        | cons r ds =>
          rw [List.map_cons, List.map_cons, dropHexPrefix, if_neg]
          rintro ⟨-, h | h, -⟩
          · exact h5 h
          · exact h6 h
    dsimp only
    have hv := hexNum_val _ h 0
    rw [List.map_cons] at hv
    rw [this, hv, hexNumVal]

theorem strtol10_val {ds : List Char} (h : ∀ c ∈ ds, '0' ≤ c ∧ c ≤ '9') : strtol10 ds = clamp false (decVal ds) := by
  have hz : '\x00' ∉ ds := fun hm => absurd (h _ hm).1 (by decide)
  have hn := decNum_foldl ds h nil_ws 0
  rw [List.append_nil] at hn
  rw [strtol10, cstr_eq hz]
  cases ds with
  | nil => rfl
  | cons c ds =>
    have hc := h c (List.mem_cons_self ..)
    have h2 : isSpace c = false ∧ c ≠ '-' ∧ c ≠ '+' := by
      have := digit_facts hc
      refine ⟨?_, ?_, ?_⟩
      · rw [isSpace, Bool.eq_false_iff]
        intro e
        simp only [Bool.or_eq_true, beq_iff_eq] at e
        rcases e with ((((rfl | rfl) | rfl) | rfl) | rfl) | rfl <;> exact absurd hc (by decide)
      · rintro rfl; exact absurd hc (by decide)
      · rintro rfl; exact absurd hc (by decide)
    rw [List.dropWhile_cons, if_neg (by rw [h2.1]; decide), splitSign, if_neg h2.2.1, if_neg h2.2.2]
    dsimp only
    rw [hn, decVal]

theorem entity_ok {e : List Char} {c : Char} (h : (e, c) ∈ entities) (t : List Char) : entity (e ++ t) = ([c], t) := by
  simp only [entities, List.mem_cons, Prod.mk.injEq, List.not_mem_nil, or_false] at h
  rcases h with ⟨rfl, rfl⟩ | ⟨rfl, rfl⟩ | ⟨rfl, rfl⟩ | ⟨rfl, rfl⟩ | ⟨rfl, rfl⟩ <;> rfl

theorem entity_hex {ds : List (Char × Nat)} (h : ∀ p ∈ ds, p ∈ hexDigits) (hc : CodeOk (hexNumVal ds)) (t : List Char) :
    entity ('&' :: '#' :: 'x' :: (ds.map (·.1) ++ ';' :: t)) = (utf8 (hexNumVal ds), t) := by
  have hb : ';' ∉ ds.map (·.1) := by
    rw [List.mem_map]
    rintro ⟨p, hp, e⟩
    have := (hex_facts p (h p hp)).1
    rw [e] at this
    cases this
  have m := matchP_found (pat := "&#x*;".toList) (pre := ['&', '#', 'x']) (post := [';']) (body := ds.map (·.1)) (rest := t) (w := []) rfl rfl nil_ws
    (fun c q ec => by rw [← (List.cons.inj ec).1]; rfl) (by decide) (scan_one hb)
  simp only [List.nil_append, List.cons_append] at m
  have d : ∀ p ∈ ["&lt;".toList, "&gt;".toList, "&amp;".toList, "&apos;".toList, "&quot;".toList], matchP p ('&' :: '#' :: 'x' :: (ds.map (·.1) ++ ';' :: t)) =
      ⟨false, [], '&' :: '#' :: 'x' :: (ds.map (·.1) ++ ';' :: t)⟩ := by
    intro p hp
    simp only [List.mem_cons, List.not_mem_nil, or_false] at hp
    rcases hp with rfl | rfl | rfl | rfl | rfl <;> rfl
  rw [entity, entityTable]
  simp only [firstMatch, d _ (show "&lt;".toList ∈ _ by simp), d _ (show "&gt;".toList ∈ _ by simp), d _ (show "&amp;".toList ∈ _ by simp), d _ (show "&apos;".toList ∈ _ by simp),
    d _ (show "&quot;".toList ∈ _ by simp), m, if_true, strtol16_val h, toInt_small hc.2.1, outputUnicode_code hc.2.1]
  rfl

theorem entity_dec {ds : List Char} (hne : ds ≠ []) (h : ∀ c ∈ ds, '0' ≤ c ∧ c ≤ '9') (hc : CodeOk (decVal ds)) (t : List Char) :
    entity ('&' :: '#' :: (ds ++ ';' :: t)) = (utf8 (decVal ds), t) := by
  have hb : ';' ∉ ds := fun hm => absurd (h _ hm).2 (by decide)
  have m := matchP_found (pat := "&#*;".toList) (pre := ['&', '#']) (post := [';']) (body := ds) (rest := t) (w := []) rfl rfl nil_ws
    (fun c q ec => by rw [← (List.cons.inj ec).1]; rfl) (by decide) (scan_one hb)
  simp only [List.nil_append, List.cons_append] at m
  have d : ∀ p ∈ ["&lt;".toList, "&gt;".toList, "&amp;".toList, "&apos;".toList, "&quot;".toList, "&#x*;".toList], matchP p ('&' :: '#' :: (ds ++ ';' :: t)) =
      ⟨false, [], '&' :: '#' :: (ds ++ ';' :: t)⟩ := by
    intro p hp
    simp only [List.mem_cons, List.not_mem_nil, or_false] at hp
    rcases hp with rfl | rfl | rfl | rfl | rfl | rfl
    any_goals rfl
    cases ds with
    | nil => exact absurd rfl hne
    | cons a ds =>
      have hx : a ≠ 'x' := by rintro rfl; exact absurd (h 'x' (List.mem_cons_self ..)) (by decide)
      refine matchP_differs (fun c q ec => by rw [← (List.cons.inj ec).1]; rfl) ?_
      rw [show "&#x*;".toList.takeWhile (· != '*') = ['&', '#', 'x'] from rfl, lit, if_pos rfl, lit, if_pos rfl, List.cons_append, lit, if_neg hx]
  rw [entity, entityTable]
  simp only [firstMatch, d _ (show "&lt;".toList ∈ _ by simp), d _ (show "&gt;".toList ∈ _ by simp), d _ (show "&amp;".toList ∈ _ by simp), d _ (show "&apos;".toList ∈ _ by simp),
    d _ (show "&quot;".toList ∈ _ by simp), d _ (show "&#x*;".toList ∈ _ by simp), m, if_true, strtol10_val h, toInt_small hc.2.1, outputUnicode_code hc.2.1]
  rfl

/-! ## Elements -/

/-- The first character of an element is `<`, the second belongs to a name. -/
theorem elem_head {strict : Bool} {k : Node} {t : List Char} (h : Elem strict k t) : ∃ c q, t = '<' :: c :: q ∧ c ∉ special := by
  cases h with
  | @empty name ta w attrs hn =>
    cases name with
    | nil => exact absurd rfl (name_ne hn)
    | cons a name => exact ⟨a, _, rfl, (name_char hn (List.mem_cons_self ..)).2.1⟩
  | @full name ta w text tc w2 attrs kids hn =>
    cases name with
    | nil => exact absurd rfl (name_ne hn)
    | cons a name => exact ⟨a, _, rfl, (name_char hn (List.mem_cons_self ..)).2.1⟩

/-- Neither a closing tag nor a comment begins here. -/
theorem matchP_elem {c : Char} (h : c ∉ special) (q : List Char) : matchP "</*>".toList ('<' :: c :: q) = ⟨false, [], '<' :: c :: q⟩ ∧
    matchP "<!--*-->".toList ('<' :: c :: q) = ⟨false, [], '<' :: c :: q⟩ ∧ matchP "<?*?>".toList ('<' :: c :: q) = ⟨false, [], '<' :: c :: q⟩ := by
  have hs : ∀ a r, '<' :: c :: q = a :: r → isSpace a = false := fun a r e => by rw [← (List.cons.inj e).1]; rfl
  refine ⟨matchP_differs hs ?_, matchP_differs hs ?_, matchP_differs hs ?_⟩
  · rw [show "</*>".toList.takeWhile (· != '*') = ['<', '/'] from rfl, lit, if_pos rfl, lit, if_neg fun e => h (by rw [e]; decide)]
  · rw [show "<!--*-->".toList.takeWhile (· != '*') = ['<', '!', '-', '-'] from rfl, lit, if_pos rfl, lit, if_neg fun e => h (by rw [e]; decide)]
  · rw [show "<?*?>".toList.takeWhile (· != '*') = ['<', '?'] from rfl, lit, if_pos rfl, lit, if_neg fun e => h (by rw [e]; decide)]

theorem skip_none {c : Char} (h : c ∉ special) (q : List Char) {n : Nat} {r : List Char} (e : skipComments n ('<' :: c :: q) = some r) : r = '<' :: c :: q := by
  cases n with
  | zero => cases e
  | succ n =>
    rw [skipComments, (matchP_elem h q).2.1] at e
    exact (Option.some.inj e).symm

/-- A whole tag. -/
theorem tag_ok {body rest : List Char} (hb : '>' ∉ body) : matchP "<*>".toList ('<' :: (body ++ '>' :: rest)) = ⟨true, body, rest⟩ := by
  have := matchP_found (pat := "<*>".toList) (pre := ['<']) (post := ['>']) (body := body) (rest := rest) (w := []) rfl rfl nil_ws
    (fun c q ec => by rw [← (List.cons.inj ec).1]; rfl) (by decide) (scan_one hb)
  simpa using this

theorem close_ok {body rest : List Char} (hb : '>' ∉ body) : matchP "</*>".toList ('<' :: '/' :: (body ++ '>' :: rest)) = ⟨true, body, rest⟩ := by
  have := matchP_found (pat := "</*>".toList) (pre := ['<', '/']) (post := ['>']) (body := body) (rest := rest) (w := []) rfl rfl nil_ws
    (fun c q ec => by rw [← (List.cons.inj ec).1]; rfl) (by decide) (scan_one hb)
  simpa using this

theorem name_gt {n : List Char} (h : NameOk n) : '>' ∉ n := fun hm => (name_char h hm).2.1 (by decide)

theorem ws_gt {w : List Char} (h : AllWs w) : '>' ∉ w := fun hm => by rcases h _ hm with h | h | h | h <;> exact absurd h (by decide)

theorem inside_gt {strict : Bool} {name ta w : List Char} {attrs : List (List Char × List Char)} (hn : NameOk name) (ha : Attrs strict attrs ta) (hw : AllWs w) : '>' ∉ name ++ (ta ++ w) := by
  rw [List.mem_append, List.mem_append]
  rintro (hm | hm | hm)
  · exact name_gt hn hm
  · exact ((attrs_chars ha).1 _ hm).1 rfl
  · exact ws_gt hw hm

theorem inside_last {strict : Bool} {name ta w : List Char} {attrs : List (List Char × List Char)} (hn : NameOk name) (ha : Attrs strict attrs ta) (hw : AllWs w) :
    ∃ c, (name ++ (ta ++ w)).getLast? = some c ∧ c ≠ '/' ∧ c ≠ '?' := by
  cases hl : w.getLast? with
  | some c =>
    refine ⟨c, by simp [List.getLast?_append, hl], ?_⟩
    rcases hw c (List.mem_of_getLast? hl) with rfl | rfl | rfl | rfl <;> decide
  | none =>
    rw [List.getLast?_eq_none_iff.1 hl, List.append_nil]
    rcases (attrs_chars ha).2.1 with rfl | h
    · rw [List.append_nil]
      obtain ⟨c, e, -⟩ := hn.2
      have := (name_char hn (List.mem_of_getLast? e)).2.1
      exact ⟨c, e, fun h => this (by rw [h]; decide), fun h => this (by rw [h]; decide)⟩
    · exact ⟨'"', by simp [List.getLast?_append, h], by decide, by decide⟩

mutual
/-- An element gives its node and leaves what follows it. -/
theorem elem_ok {strict : Bool} : ∀ {k : Node} {t : List Char}, Elem strict k t → ∀ (n : Nat) (tail : List Char) (o : Option Node) (r : List Char), parse n (t ++ tail) = some (o, r) →
    o = some k ∧ r = tail
  | _, _, .empty (name := name) (ta := ta) (w := w) (attrs := attrs) hn ha hd hw, n, tail, o, r, e => by
    cases n with
    | zero => rw [parse] at e; cases e
    | succ n =>
      obtain ⟨c, q, hq, hc⟩ := elem_head (Elem.empty hn ha hd hw)
      have hq' : ('<' :: (name ++ (ta ++ (w ++ ['/', '>'])))) ++ tail = '<' :: c :: (q ++ tail) := by rw [hq]; rfl
      rw [parse] at e
      split at e
      · cases e
      · rename_i s' es
        rw [hq'] at es
        have := skip_none hc _ es
        rw [this, ← hq'] at e
        have hb : '>' ∉ name ++ (ta ++ (w ++ ['/'])) := by
          have := inside_gt hn ha hw
          simp only [List.mem_append, not_or] at this ⊢
          exact ⟨this.1, this.2.1, this.2.2, by decide⟩
        have ht := tag_ok (rest := tail) hb
        have e1 : '<' :: (name ++ (ta ++ (w ++ ['/'])) ++ '>' :: tail) = '<' :: (name ++ (ta ++ (w ++ ['/', '>']))) ++ tail := by simp
        rw [e1] at ht
        rw [ht] at e
        dsimp only at e
        have e2 : name ++ (ta ++ (w ++ ['/'])) = (name ++ (ta ++ w)) ++ ['/'] := by simp
        rw [if_neg (by decide), e2, if_pos (by simp), List.dropLast_concat, parseAttribute_ok hn ha hd hw] at e
        cases e
        exact ⟨rfl, rfl⟩
  | _, _, .full (name := name) (ta := ta) (w := w) (text := text) (tc := tc) (w2 := w2) (attrs := attrs) (kids := kids) hn ha hd hw hct hw2, n, tail, o, r, e => by
    cases n with
    | zero => rw [parse] at e; cases e
    | succ n =>
      obtain ⟨c, q, hq, hc⟩ := elem_head (Elem.full hn ha hd hw hct hw2)
      have hq' : ('<' :: (name ++ (ta ++ (w ++ '>' :: (tc ++ '<' :: '/' :: (name ++ (w2 ++ ['>']))))))) ++ tail = '<' :: c :: (q ++ tail) := by rw [hq]; rfl
      rw [parse] at e
      split at e
      · cases e
      · rename_i s' es
        rw [hq'] at es
        have := skip_none hc _ es
        rw [this, ← hq'] at e
        have ht := tag_ok (rest := tc ++ '<' :: '/' :: ((name ++ w2) ++ '>' :: tail)) (inside_gt hn ha hw)
        have e1 : '<' :: (name ++ (ta ++ w) ++ '>' :: (tc ++ '<' :: '/' :: ((name ++ w2) ++ '>' :: tail))) =
            ('<' :: (name ++ (ta ++ (w ++ '>' :: (tc ++ '<' :: '/' :: (name ++ (w2 ++ ['>']))))))) ++ tail := by simp
        rw [e1] at ht
        rw [ht] at e
        obtain ⟨lc, hl1, hl2, -⟩ := inside_last hn ha hw
        dsimp only at e
        rw [if_neg (by decide), if_neg (by rw [hl1]; intro h; exact hl2 (Option.some.inj h)), parseAttribute_ok hn ha hd hw] at e
        split at e
        · rename_i a text' kids' tag r' ea ei
          cases ea
          obtain ⟨m, res, em, er⟩ := content_ok hct n _ _ ei
          cases m with
          | zero => rw [inner] at em; cases em
          | succ m =>
            rw [inner, if_neg (by decide), if_pos rfl, close_ok (fun hm => (List.mem_append.1 hm).elim (name_gt hn) (ws_gt hw2))] at em
            cases em
            cases er
            dsimp only at e
            simp only [List.append_nil] at e
            split at e
            · rename_i h0
              cases e
              exact ⟨rfl, h0.symm⟩
            · rw [if_neg (by rw [trim_name hn hw2]; exact fun h => h rfl)] at e
              cases e
              exact ⟨rfl, rfl⟩
        · cases e

/-- The content of an element gives its text and its children. -/
theorem content_ok {strict : Bool} : ∀ {text : List Char} {kids : List Node} {t : List Char}, Content strict text kids t → ∀ (n : Nat) (tail : List Char) (p : List Char × List Node × List Char × List Char),
    inner n (t ++ tail) = some p → ∃ m q, inner m tail = some q ∧ p = (text ++ q.1, kids ++ q.2.1, q.2.2)
  | _, _, _, .nil, n, tail, p, e => ⟨n, p, e, rfl⟩
  | _, _, _, .char (c := c) (t := t) h1 h2 hc, n, tail, p, e => by
    cases n with
    | zero => rw [inner] at e; cases e
    | succ n =>
      rw [List.cons_append, inner, if_neg h2, if_neg h1] at e
      cases ei : inner n (t ++ tail) with
      | none => rw [ei] at e; cases e
      | some p' =>
        rw [ei] at e
        cases e
        obtain ⟨m, q, em, rfl⟩ := content_ok hc n tail p' ei
        exact ⟨m, q, em, rfl⟩
  | _, _, _, .entity (e := en) (c := c) (t := t) hent hc, n, tail, p, e => by
    cases n with
    | zero => rw [inner] at e; cases e
    | succ n =>
      have hh : ∃ x, en ++ (t ++ tail) = '&' :: x := by
        simp only [entities, List.mem_cons, Prod.mk.injEq, List.not_mem_nil, or_false] at hent
        rcases hent with ⟨rfl, rfl⟩ | ⟨rfl, rfl⟩ | ⟨rfl, rfl⟩ | ⟨rfl, rfl⟩ | ⟨rfl, rfl⟩ <;> exact ⟨_, rfl⟩
      obtain ⟨x, hx⟩ := hh
      rw [List.append_assoc, hx, inner, if_pos rfl, ← hx, entity_ok hent] at e
      dsimp only at e
      cases ei : inner n (t ++ tail) with
      | none => rw [ei] at e; cases e
      | some p' =>
        rw [ei] at e
        cases e
        obtain ⟨m, q, em, rfl⟩ := content_ok hc n tail p' ei
        exact ⟨m, q, em, rfl⟩
  | _, _, _, .dec (ds := ds) (t := t) hne hds hcode hc, n, tail, p, e => by
    cases n with
    | zero => rw [inner] at e; cases e
    | succ n =>
      have e1 : '&' :: '#' :: (ds ++ ';' :: t) ++ tail = '&' :: '#' :: (ds ++ ';' :: (t ++ tail)) := by simp
      rw [e1, inner, if_pos rfl, entity_dec hne hds hcode] at e
      dsimp only at e
      cases ei : inner n (t ++ tail) with
      | none => rw [ei] at e; cases e
      | some p' =>
        rw [ei] at e
        cases e
        obtain ⟨m, q, em, rfl⟩ := content_ok hc n tail p' ei
        exact ⟨m, q, em, by simp⟩
  | _, _, _, .hex (ds := ds) (t := t) hne hds hcode hc, n, tail, p, e => by
    cases n with
    | zero => rw [inner] at e; cases e
    | succ n =>
      have e1 : '&' :: '#' :: 'x' :: (ds.map (·.1) ++ ';' :: t) ++ tail = '&' :: '#' :: 'x' :: (ds.map (·.1) ++ ';' :: (t ++ tail)) := by simp
      rw [e1, inner, if_pos rfl, entity_hex hds hcode] at e
      dsimp only at e
      cases ei : inner n (t ++ tail) with
      | none => rw [ei] at e; cases e
      | some p' =>
        rw [ei] at e
        cases e
        obtain ⟨m, q, em, rfl⟩ := content_ok hc n tail p' ei
        exact ⟨m, q, em, by simp⟩
  | _, _, _, .comment (b := b) (t := t) hb hc, n, tail, p, e => by
    cases n with
    | zero => rw [inner] at e; cases e
    | succ n =>
      have e1 : ("<!--".toList ++ (b ++ ("-->".toList ++ t))) ++ tail = '<' :: '!' :: '-' :: '-' :: (b ++ ("-->".toList ++ (t ++ tail))) := by simp
      have m0 : matchP "</*>".toList ('<' :: '!' :: '-' :: '-' :: (b ++ ("-->".toList ++ (t ++ tail)))) = ⟨false, [], '<' :: '!' :: '-' :: '-' :: (b ++ ("-->".toList ++ (t ++ tail)))⟩ :=
        matchP_differs (fun c q ec => by rw [← (List.cons.inj ec).1]; rfl) rfl
      have m := matchP_found (pat := "<!--*-->".toList) (pre := "<!--".toList) (post := "-->".toList) (body := b) (rest := t ++ tail) (w := []) rfl rfl nil_ws
        (fun c q ec => by rw [← (List.cons.inj ec).1]; rfl) (by decide) (scan_comment hb _)
      have m1 : matchP "<!--*-->".toList ('<' :: '!' :: '-' :: '-' :: (b ++ ("-->".toList ++ (t ++ tail)))) = ⟨true, b, t ++ tail⟩ := m
      rw [e1, inner, if_neg (by decide), if_pos rfl, m0] at e
      dsimp only at e
      rw [if_neg (by decide), m1] at e
      exact content_ok hc n tail p e
  | _, _, _, .elem (k := k) (e := et) (t := t) he hc, n, tail, p, e => by
    cases n with
    | zero => rw [inner] at e; cases e
    | succ n =>
      obtain ⟨c, q, hq, hsp⟩ := elem_head he
      have hq' : et ++ t ++ tail = '<' :: c :: (q ++ t ++ tail) := by rw [hq]; rfl
      rw [hq', inner, if_neg (by decide), if_pos rfl, (matchP_elem hsp _).1] at e
      dsimp only at e
      rw [if_neg (by decide), (matchP_elem hsp _).2.1] at e
      dsimp only at e
      rw [if_neg (by decide), ← hq', List.append_assoc] at e
      cases ep : parse n (et ++ (t ++ tail)) with
      | none => rw [ep] at e; cases e
      | some or =>
        obtain ⟨o, r⟩ := or
        obtain ⟨rfl, rfl⟩ := elem_ok he n _ o r ep
        rw [ep] at e
        dsimp only at e
        cases ei : inner n (t ++ tail) with
        | none => rw [ei] at e; cases e
        | some p' =>
          rw [ei] at e
          cases e
          obtain ⟨m, q, em, rfl⟩ := content_ok hc n tail p' ei
          exact ⟨m, q, em, rfl⟩
end

theorem content_end {strict : Bool} {text : List Char} {kids : List Node} {t : List Char} (h : Content strict text kids t) {n : Nat} {p : List Char × List Node × List Char × List Char}
    (e : inner n t = some p) : p = (text, kids, [], []) := by
  obtain ⟨m, q, em, rfl⟩ := content_ok h n [] p (by rw [List.append_nil]; exact e)
  cases m with
  | zero => rw [inner] at em; cases em
  | succ m =>
    rw [inner] at em
    cases em
    simp

/-- No content begins with a declaration. -/
theorem content_head {strict : Bool} {text : List Char} {kids : List Node} {t : List Char} (h : Content strict text kids t) : t = [] ∨ lit ['<', '?'] t = .bad := by
  cases h with
  | nil => exact .inl rfl
  | char h1 h2 _ => right; rw [lit, if_neg h1]
  | entity he _ =>
    right
    simp only [entities, List.mem_cons, Prod.mk.injEq, List.not_mem_nil, or_false] at he
    rcases he with ⟨rfl, rfl⟩ | ⟨rfl, rfl⟩ | ⟨rfl, rfl⟩ | ⟨rfl, rfl⟩ | ⟨rfl, rfl⟩ <;> rfl
  | dec => exact .inr rfl
  | hex => exact .inr rfl
  | comment => exact .inr rfl
  | elem he _ =>
    right
    obtain ⟨c, q, rfl, hc⟩ := elem_head he
    rw [List.cons_append, List.cons_append, lit, if_pos rfl, lit, if_neg fun e => hc (by rw [e]; decide)]

/-- **C90**: reading a document gives the tree that it denotes. -/
theorem C90_parse_partial {strict : Bool} {f : Node} {t : List Char} (h : Doc strict f t) : readFile t = some f := by
  obtain ⟨f', e⟩ := C90_terminates t
  rw [e]
  cases h with
  | @plain w text t kids hw hc hh =>
    have hs : ∀ c q, t = c :: q → isSpace c = false := by
      intro c q ec
      have := hh c (by rw [ec]; rfl)
      rw [isSpace, Bool.eq_false_iff]
      intro e
      simp only [Bool.or_eq_true, beq_iff_eq] at e
      rcases e with ((((rfl | rfl) | rfl) | rfl) | rfl) | rfl <;> exact this (by simp)
    have hm : matchP "<?*?>".toList (w ++ t) = ⟨false, [], t⟩ := by
      rw [← matchP_drop, drop_ws hw hs]
      rcases content_head hc with rfl | hb
      · rfl
      · exact matchP_differs hs hb
    rw [readFile, hm] at e
    dsimp only at e
    rw [if_neg (by decide)] at e
    split at e
    · rename_i a text' kids' tag r' ea ei
      cases ea
      cases content_end hc ei
      exact e.symm
    · cases e
  | @decl w name ta w2 text t attrs kids hw hn ha hd hw2 hc =>
    have hm : matchP "<?*?>".toList (w ++ '<' :: '?' :: (name ++ (ta ++ (w2 ++ '?' :: '>' :: t)))) = ⟨true, name ++ (ta ++ w2), t⟩ := by
      obtain ⟨c, hl, -, hq⟩ := inside_last hn ha hw2
      have := matchP_found (pat := "<?*?>".toList) (pre := ['<', '?']) (post := ['?', '>']) (body := name ++ (ta ++ w2)) (rest := t) (w := w) rfl rfl hw
        (fun c q ec => by rw [← (List.cons.inj ec).1]; rfl) (by decide)
        (scan_decl (inside_gt hn ha hw2) (fun e => by simp [name_ne hn] at e) (by rw [hl]; intro h; exact hq (Option.some.inj h)) t)
      simpa using this
    rw [readFile, hm] at e
    dsimp only at e
    rw [if_pos rfl, parseAttribute_ok hn ha hd hw2] at e
    split at e
    · rename_i a text' kids' tag r' ea ei
      cases ea
      cases content_end hc ei
      exact e.symm
    · cases e

end Verif.Xml
