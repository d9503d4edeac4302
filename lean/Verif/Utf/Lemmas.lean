import Verif.Utf.Model

/-! # Lemmas about UTF conversion -/

namespace Verif.Utf

/-! ## Bits -/

set_option maxRecDepth 4000 in
theorem and_bf (x : Nat) : ((x ||| 0x80) &&& 0xBF) % 256 = x % 64 + 128 := by
  have h1 : ∀ y < 256, ((y ||| 0x80) &&& 0xBF) % 256 = y % 64 + 128 := by decide
  have h2 := h1 (x % 256) (Nat.mod_lt _ (by omega))
  have h3 : ((x ||| 0x80) &&& 0xBF) % 256 = ((x % 256 ||| 0x80) &&& 0xBF) % 256 := by
    apply Nat.eq_of_testBit_eq
    intro i
    rw [show (256 : Nat) = 2 ^ 8 from rfl, Nat.testBit_mod_two_pow, Nat.testBit_mod_two_pow]
    by_cases hi : i < 8
    · have : (x % 256).testBit i = x.testBit i := by
        rw [show (256 : Nat) = 2 ^ 8 from rfl, Nat.testBit_mod_two_pow]; simp [hi]
      simp only [Nat.testBit_and, Nat.testBit_or, this]
    · simp [hi]
  rw [h3, h2]
  omega

theorem or_c0 {x : Nat} (h : x < 32) : (x ||| 0xC0) % 256 = x + 192 := by
  have : ∀ y < 32, (y ||| 0xC0) % 256 = y + 192 := by decide
  exact this x h

theorem or_e0 {x : Nat} (h : x < 16) : (x ||| 0xE0) % 256 = x + 224 := by
  have : ∀ y < 16, (y ||| 0xE0) % 256 = y + 224 := by decide
  exact this x h

theorem or_f0 {x : Nat} (h : x < 8) : (x ||| 0xF0) % 256 = x + 240 := by
  have : ∀ y < 8, (y ||| 0xF0) % 256 = y + 240 := by decide
  exact this x h

set_option maxRecDepth 4000 in
theorem lead_eq (b : Nat) (h : b < 256) : wlead b = if 128 ≤ b ∧ b < 192 then 0 else 1 := by
  have : ∀ b < 256, wlead b = if 128 ≤ b ∧ b < 192 then 0 else 1 := by decide
  exact this b h

theorem and_3ff (x : Nat) : x &&& 0x3FF = x % 1024 := Nat.and_two_pow_sub_one_eq_mod x 10

/-! ## Buffers -/

theorem wr_app {pre l : List Nat} {k v : Nat} : wr (pre ++ l) (pre.length + k) v = (wr l k v).map (pre ++ ·) := by
  unfold wr
  by_cases h : k < l.length
  · rw [if_pos (by simp; exact h), if_pos h]
    simp [List.set_append_right _ _ (Nat.le_add_right _ _)]
  · rw [if_neg (by simp; omega), if_neg h]; rfl

theorem wr_app0 {pre l : List Nat} {v : Nat} : wr (pre ++ l) pre.length v = (wr l 0 v).map (pre ++ ·) := wr_app (k := 0)

/-! ## Scanning -/

def total (w : Nat → Nat) (l : List Nat) : Nat := (l.map w).sum

theorem total_append {w : Nat → Nat} {l m : List Nat} : total w (l ++ m) = total w l + total w m := by simp [total]

theorem total_cons {w : Nat → Nat} {a : Nat} {m : List Nat} : total w (a :: m) = w a + total w m := by simp [total]

theorem scan_spec {w : Nat → Nat} : ∀ {src : List Nat} {lim : Option Nat} {p q : Nat}, scan w src lim = some (p, q) →
    p < src.length ∧ (∀ l, lim = some l → p ≤ l) ∧ q = 1 + total w (src.take p) ∧ (src[p]? = some 0 ∨ lim = some p) ∧ (∀ c ∈ src.take p, c ≠ 0)
  | [], _, _, _, h => by simp [scan] at h
  | c :: m, lim, p, q, h => by
    rw [scan] at h
    split at h
    · next hc =>
      cases h
      refine ⟨by simp, fun _ _ => Nat.zero_le _, rfl, ?_, by simp⟩
      rcases hc with hc | hc
      · exact .inl (by simp [hc])
      · exact .inr hc
    · next hc =>
      rw [Option.map_eq_some_iff] at h
      obtain ⟨⟨p', q'⟩, h1, h2⟩ := h
      cases h2
      obtain ⟨a1, a2, a3, a4, a5⟩ := scan_spec h1
      refine ⟨by simp; exact a1, fun l hl => ?_, ?_, ?_, ?_⟩
      · subst hl
        have := a2 (l - 1) rfl
        have : l ≠ 0 := fun e => hc (.inr (by rw [e]))
        omega
      · show q' + w c = 1 + total w (List.take (p' + 1) (c :: m))
        rw [List.take_succ_cons, total_cons, a3]; omega
      · rcases a4 with a4 | a4
        · exact .inl (by simpa using a4)
        · cases lim with
          | none => cases a4
          | some l =>
            simp at a4
            have : l ≠ 0 := fun e => hc (.inr (by rw [e]))
            exact .inr (by show some l = some (p' + 1); congr 1; omega)
      · intro x hx
        rw [List.take_succ_cons, List.mem_cons] at hx
        rcases hx with rfl | hx
        · exact fun e => hc (.inl e)
        · exact a5 x hx

/-- What is converted: everything before the position, and the zero if that is where it stopped. -/
theorem srcEnd_spec {w : Nat → Nat} {src : List Nat} {lim : Option Nat} {p q : Nat} (h : scan w src lim = some (p, q)) :
    src.take (srcEnd p lim) = src.take p ∨ src.take (srcEnd p lim) = src.take p ++ [0] := by
  obtain ⟨a1, a2, -, a4, -⟩ := scan_spec h
  have hz : src[p]? = some 0 → src.take (p + 1) = src.take p ++ [0] := fun h0 => by
    rw [List.take_add_one, h0]; rfl
  cases lim with
  | none =>
    rcases a4 with a4 | a4
    · exact .inr (hz a4)
    · cases a4
  | some l =>
    unfold srcEnd
    have := a2 l rfl
    by_cases hl : p < l
    · simp only [hl, if_true]
      rcases a4 with a4 | a4
      · exact .inr (hz a4)
      · cases a4; omega
    · simp only [hl, if_false]
      have : l = p := by omega
      exact .inl (by rw [this])

theorem total_srcEnd {w : Nat → Nat} {src : List Nat} {lim : Option Nat} {p q : Nat} (h : scan w src lim = some (p, q)) (h0 : w 0 = 1) :
    total w (src.take (srcEnd p lim)) ≤ q := by
  obtain ⟨-, -, a3, -, -⟩ := scan_spec h
  rcases srcEnd_spec h with e | e
  · rw [e, a3]; omega
  · rw [e, a3, total_append]; simp [total, h0]; omega

theorem scan_text {w : Nat → Nat} : ∀ {l : List Nat} (rest : List Nat), (∀ c ∈ l, c ≠ 0) → scan w (l ++ 0 :: rest) none = some (l.length, 1 + total w l)
  | [], rest, _ => by simp [scan, total]
  | c :: l, rest, h => by
    have h1 : c ≠ 0 := h c (by simp)
    rw [List.cons_append, scan, if_neg (by simp [h1]), Option.map_none, scan_text rest fun c hc => h c (by simp [hc])]
    simp [total_cons]; omega

/-! ## UTF-8 output -/

/-- The bytes for one unit. -/
def e8 (ch : Nat) : List Nat :=
  let c := if ch ≤ 0x10FFFF then ch else 0xFFFD
  if ch < 0x80 then [c % 256]
  else if ch < 0x800 then [c / 64 + 192, c % 64 + 128]
  else if ch < 0x10000 ∨ 0x10FFFF < ch then [c / 4096 + 224, c / 64 % 64 + 128, c % 64 + 128]
  else [c / 262144 + 240, c / 4096 % 64 + 128, c / 64 % 64 + 128, c % 64 + 128]

theorem e8_length (ch : Nat) : (e8 ch).length = w8 ch := by
  unfold e8 w8
  simp only
  repeat' split
  all_goals first | rfl | omega

theorem put8_eq {pre rest : List Nat} {ch : Nat} (h : w8 ch ≤ rest.length) :
    put8 (w8 ch) (if ch ≤ 0x10FFFF then ch else 0xFFFD) (pre ++ rest) (pre.length + w8 ch) = some (pre ++ (e8 ch ++ rest.drop (w8 ch)), pre.length) := by
  unfold w8 at h ⊢
  unfold e8
  have hs : ∀ x : Nat, x >>> 6 = x / 64 := fun x => Nat.shiftRight_eq_div_pow x 6
  simp only
  by_cases h1 : ch < 0x80
  · rw [if_pos h1] at h
    match rest, h with
    | a :: rest, _ =>
      rw [if_pos h1, if_pos h1, if_pos (show ch ≤ 0x10FFFF by omega)]
      simp [put8, tail8, firstByteMark, wr_app0, wr]
  by_cases h2 : ch < 0x800
  · rw [if_neg h1, if_pos h2] at h
    match rest, h with
    | a :: b :: rest, _ =>
      rw [if_neg h1, if_pos h2, if_neg h1, if_pos h2, if_pos (show ch ≤ 0x10FFFF by omega)]
      have e1 := or_c0 (x := ch / 64) (by omega)
      simp [put8, tail8, firstByteMark, wr_app0, wr_app, wr, and_bf, hs, e1]
  by_cases h3 : ch < 0x10000
  · rw [if_neg h1, if_neg h2, if_pos h3] at h
    match rest, h with
    | a :: b :: c :: rest, _ =>
      have h4 : ch ≤ 0x10FFFF := by omega
      have h5 : ch < 0x10000 ∨ 0x10FFFF < ch := .inl h3
      simp only [h1, h2, h3, h4, h5, if_true, if_false]
      have e1 := or_e0 (x := ch / 4096) (by omega)
      have e2 : ch / 64 / 64 = ch / 4096 := by omega
      simp [put8, tail8, firstByteMark, wr_app0, wr_app, wr, and_bf, hs, e2, e1]
  by_cases h4 : ch ≤ 0x10FFFF
  · rw [if_neg h1, if_neg h2, if_neg h3, if_pos h4] at h
    match rest, h with
    | a :: b :: c :: d :: rest, _ =>
      have h5 : ¬(ch < 0x10000 ∨ 0x10FFFF < ch) := by omega
      simp only [h1, h2, h3, h4, h5, if_true, if_false]
      have e1 := or_f0 (x := ch / 262144) (by omega)
      have e2 : ch / 64 / 64 = ch / 4096 := by omega
      have e3 : ch / 4096 / 64 = ch / 262144 := by omega
      have h6 : ¬ 1114111 < ch := by omega
      simp [put8, tail8, firstByteMark, wr_app0, wr_app, wr, and_bf, hs, e2, e3, e1, h6]
  · rw [if_neg h1, if_neg h2, if_neg h3, if_neg h4] at h
    match rest, h with
    | a :: b :: c :: rest, _ =>
      have h5 : ch < 0x10000 ∨ 0x10FFFF < ch := by omega
      simp only [h1, h2, h3, h4, h5, if_true, if_false]
      have h6 : 1114111 < ch := by omega
      simp [put8, tail8, firstByteMark, wr_app0, wr_app, wr, h6]

/-- As many as fit. -/
def e8s : List Nat → Nat → List Nat
  | [], _ => []
  | ch :: src, sp => if w8 ch > sp then [] else e8 ch ++ e8s src (sp - w8 ch)

theorem e8s_le : ∀ (src : List Nat) (sp : Nat), (e8s src sp).length ≤ sp
  | [], _ => Nat.zero_le _
  | ch :: src, sp => by
    rw [e8s]
    split
    · exact Nat.zero_le _
    · have := e8s_le src (sp - w8 ch)
      rw [List.length_append, e8_length]
      omega

theorem e8s_all : ∀ {src : List Nat} {sp : Nat}, total w8 src ≤ sp → e8s src sp = src.flatMap e8
  | [], _, _ => rfl
  | ch :: src, sp, h => by
    rw [total_cons] at h
    rw [e8s, if_neg (by omega), e8s_all (by omega), List.flatMap_cons]

theorem loop8_eq : ∀ {src pre rest : List Nat}, loop8 src (pre ++ rest) pre.length =
    some (pre.length + (e8s src rest.length).length, pre ++ (e8s src rest.length ++ rest.drop (e8s src rest.length).length))
  | [], pre, rest => by simp [loop8, e8s]
  | ch :: src, pre, rest => by
    rw [loop8, e8s]
    by_cases h : w8 ch > rest.length
    · rw [if_pos (by rw [List.length_append]; omega), if_pos h]; simp
    · rw [if_neg (by rw [List.length_append]; omega), if_neg h, put8_eq (by omega), Option.bind_some]
      have := loop8_eq (src := src) (pre := pre ++ e8 ch) (rest := rest.drop (w8 ch))
      rw [List.append_assoc, List.length_append, e8_length, List.length_drop] at this
      rw [this]
      simp [e8_length, Nat.add_assoc]

/-! ## UTF-16 output -/

/-- The units for one unit. -/
def e16 (ch : Nat) : List Nat :=
  if ch ≤ 0xFFFF then (if ch ≥ 0xD800 ∧ ch ≤ 0xDFFF then [0xFFFD] else [ch])
  else if ch > 0x10FFFF then [0xFFFD]
  else [0xD800 + (ch - 0x10000) / 1024, 0xDC00 + (ch - 0x10000) % 1024]

def e16s : List Nat → Nat → List Nat
  | [], _ => []
  | ch :: src, sp => if (e16 ch).length > sp then [] else e16 ch ++ e16s src (sp - (e16 ch).length)

theorem e16_length (ch : Nat) : 1 ≤ (e16 ch).length ∧ (e16 ch).length ≤ w16 ch := by
  unfold e16 w16
  repeat' split
  all_goals first | (simp; done) | omega

theorem e16s_le : ∀ (src : List Nat) (sp : Nat), (e16s src sp).length ≤ sp
  | [], _ => Nat.zero_le _
  | ch :: src, sp => by
    rw [e16s]
    split
    · exact Nat.zero_le _
    · have := e16s_le src (sp - (e16 ch).length)
      rw [List.length_append]
      omega

theorem e16s_all : ∀ {src : List Nat} {sp : Nat}, total w16 src ≤ sp → e16s src sp = src.flatMap e16
  | [], _, _ => rfl
  | ch :: src, sp, h => by
    rw [total_cons] at h
    have := (e16_length ch).2
    rw [e16s, if_neg (by omega), e16s_all (by omega), List.flatMap_cons]

theorem loop16_eq : ∀ {src pre rest : List Nat}, loop16 src (pre ++ rest) pre.length =
    some (pre.length + (e16s src rest.length).length, pre ++ (e16s src rest.length ++ rest.drop (e16s src rest.length).length))
  | [], pre, rest => by simp [loop16, e16s]
  | ch :: src, pre, rest => by
    rw [loop16, e16s]
    match rest with
    | [] =>
      have := (e16_length ch).1
      rw [if_pos (by simp), if_pos (by simp; omega)]; simp
    | a :: rest =>
      rw [if_neg (by simp)]
      have one : ∀ v, ((wr (pre ++ a :: rest) pre.length v).bind fun buf => loop16 src buf (pre.length + 1)) =
          some (pre.length + (v :: e16s src rest.length).length, pre ++ (v :: e16s src rest.length ++ rest.drop (e16s src rest.length).length)) := fun v => by
        have := loop16_eq (src := src) (pre := pre ++ [v]) (rest := rest)
        simp only [List.append_assoc, List.singleton_append, List.length_append, List.length_singleton] at this
        have e : wr (pre ++ a :: rest) pre.length v = some (pre ++ v :: rest) := by simp [wr_app0, wr]
        rw [e, Option.bind_some]
        refine this.trans (congrArg some (Prod.ext ?_ ?_))
        · simp; omega
        · simp
      have hs : ∀ x : Nat, x >>> 10 = x / 1024 := fun x => Nat.shiftRight_eq_div_pow x 10
      unfold e16
      by_cases h1 : ch ≤ 0xFFFF
      · rw [if_pos h1, if_pos h1]
        by_cases h2 : ch ≥ 0xD800 ∧ ch ≤ 0xDFFF
        · rw [if_pos h2, if_pos h2, one]; simp
        · rw [if_neg h2, if_neg h2, one, Nat.mod_eq_of_lt (by omega)]; simp
      · rw [if_neg h1, if_neg h1]
        by_cases h2 : ch > 0x10FFFF
        · rw [if_pos h2, if_pos h2, one]; simp
        · rw [if_neg h2, if_neg h2, hs, and_3ff, Nat.mod_eq_of_lt (by omega), Nat.mod_eq_of_lt (by omega)]
          match rest with
          | [] => simp
          | b :: rest =>
            rw [if_neg (by simp), if_neg (by simp)]
            have := loop16_eq (src := src) (pre := pre ++ [0xD800 + (ch - 0x10000) / 1024, 0xDC00 + (ch - 0x10000) % 1024]) (rest := rest)
            simp only [List.append_assoc, List.cons_append, List.nil_append, List.length_append, List.length_cons, List.length_nil] at this
            have e1 : ∀ x, wr (pre ++ a :: b :: rest) pre.length x = some (pre ++ x :: b :: rest) := fun x => by simp [wr_app0, wr]
            have e2 : ∀ x y, wr (pre ++ x :: b :: rest) (pre.length + 1) y = some (pre ++ x :: y :: rest) := fun x y => by simp [wr_app, wr]
            rw [e1, Option.bind_some, e2, Option.bind_some, Nat.add_comm _ 0xD800, Nat.add_comm _ 0xDC00]
            have e3 : rest.length + 1 + 1 - (0 + 1 + 1) = rest.length := by omega
            refine this.trans (congrArg some (Prod.ext ?_ ?_))
            · simp only [List.length_cons, List.length_nil, List.length_append, e3]; omega
            · simp only [List.length_cons, List.length_nil, List.cons_append, List.nil_append, List.drop_succ_cons, e3]

end Verif.Utf
