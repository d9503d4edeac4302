import Verif.Text.Split
import Verif.Text.Line
import Verif.Text.Format
import Mathlib.Data.List.Forall2
import Mathlib.Tactic.Tauto

/-!
# C126 to C130: strings, command lines and formats
-/

namespace Verif.Text

/-! ## C126: trimming -/

theorem trimmed_at {s t : List Int} (h : Trimmed s t) (hne : t ≠ []) (hlast : ∀ c, t.getLast? = some c → 0 < c) :
    ∃ a t' c b, s = a ++ (t' ++ c :: b) ∧ t = t' ++ [c] ∧ (∀ x ∈ a, Blank x) ∧ (∀ x ∈ b, Blank x) ∧ (∀ x, t.head? = some x → ¬ Blank x) ∧ 33 ≤ c := by
  obtain ⟨a, b, hs, ha, hb, hh, hl⟩ := h
  obtain ⟨t', c, rfl⟩ : ∃ t' c, t = t' ++ [c] := ⟨t.dropLast, t.getLast hne, (List.dropLast_concat_getLast hne).symm⟩
  refine ⟨a, t', c, b, by simp [hs], rfl, ha, hb, hh, ?_⟩
  have h1 := hl c (by simp)
  have h2 := hlast c (by simp)
  unfold Blank at h1
  omega

/-- C126, partial: a C string with a character that is no blank, the last of which is positive (7-bit, for `char`), is trimmed in place by `strtrim`: the pointer returned
leads to the string without the blanks at its ends, and nothing outside of the string is changed. -/
theorem C126_strtrim_partial (m : List Int) (p : Nat) (s t : List Int) (hm : At m p s) (h : Trimmed s t) (hne : t ≠ [])
    (hlast : ∀ c, t.getLast? = some c → 0 < c) :
    ∃ m' q, strtrim m p = some (m', q) ∧ At m' q t ∧ p ≤ q ∧ m'.length = m.length ∧ (∀ i, i < p ∨ p + s.length < i → m'[i]? = m[i]?) := by
  obtain ⟨h0, pre, rest, rfl, rfl⟩ := hm
  obtain ⟨a, t', c, b, rfl, rfl, ha, hb, hh, hc⟩ := trimmed_at h hne hlast
  have hl : ltrim (pre ++ (a ++ (t' ++ c :: b) ++ 0 :: rest)) pre.length = some (pre ++ a).length := by
    cases t' with
    | nil =>
      have := ltrim_at a pre c (b ++ 0 :: rest) ha (hh c rfl)
      simpa using this
    | cons x t' =>
      have := ltrim_at a pre x (t' ++ c :: b ++ 0 :: rest) ha (hh x rfl)
      simpa using this
  have h0' : 0 ∉ t' ++ c :: b := fun e => h0 (by simp only [List.mem_append] at e ⊢; exact .inr e)
  have hn := len_at (t' ++ c :: b) (pre ++ a) rest h0'
  have hr := rtrimN_at (pre ++ a) t' (b ++ [0]) rest c (by
    intro x hx
    simp only [List.mem_append, List.mem_singleton] at hx
    rcases hx with hx | rfl
    · exact (hb x hx).2
    · decide) (.inl hc) (by simp)
  rw [show pre ++ a ++ (t' ++ c :: b ++ 0 :: rest) = pre ++ (a ++ (t' ++ c :: b) ++ 0 :: rest) by simp] at hn
  rw [show pre ++ a ++ (t' ++ c :: (b ++ [0] ++ rest)) = pre ++ (a ++ (t' ++ c :: b) ++ 0 :: rest) by simp,
    show t'.length + (b ++ [(0 : Int)]).length = (t' ++ c :: b).length by simp] at hr
  refine ⟨pre ++ a ++ (t' ++ c :: 0 :: ((b ++ [0]).tail ++ rest)), (pre ++ a).length, ?_, ⟨?_, pre ++ a, (b ++ [0]).tail ++ rest, rfl, ?_⟩, by simp, ?_, ?_⟩
  · rw [strtrim, hl, Option.bind_some, strrtrim, hn, Option.bind_some, hr]; rfl
  · intro e
    refine h0' ?_
    simp only [List.mem_append, List.mem_cons, List.not_mem_nil, or_false] at e ⊢
    rcases e with e | e
    · exact .inl e
    · exact .inr (.inl e)
  · simp
  · simp; omega
  · intro i hi
    have hlen : (0 :: (b ++ [0]).tail).length = (b ++ [0]).length := by simp
    have e1 : pre ++ a ++ (t' ++ c :: 0 :: ((b ++ [0]).tail ++ rest)) = (pre ++ (a ++ (t' ++ c :: (0 :: (b ++ [0]).tail)))) ++ rest := by simp
    have e2 : pre ++ (a ++ (t' ++ c :: b) ++ 0 :: rest) = (pre ++ (a ++ (t' ++ c :: (b ++ [0])))) ++ rest := by simp
    have l1 : (pre ++ (a ++ (t' ++ c :: (0 :: (b ++ [0]).tail)))).length = (pre ++ (a ++ (t' ++ c :: (b ++ [0])))).length := by
      simp only [List.length_append, List.length_cons] at hlen ⊢; omega
    rcases hi with hi | hi
    · rw [List.append_assoc, List.getElem?_append_left hi, List.getElem?_append_left hi]
    · have hi' : (pre ++ (a ++ (t' ++ c :: (b ++ [0])))).length ≤ i := by
        simp only [List.length_append, List.length_cons, List.length_nil] at hi ⊢; omega
      rw [e1, e2, List.getElem?_append_right (l1 ▸ hi'), List.getElem?_append_right hi', l1]

/-- C126, partial: `Trim` gives the string without the blanks at its ends, if the string is not empty and its last character that is no blank is positive. -/
theorem C126_trim_partial (s t : List Int) (h0 : 0 ∉ s) (hs : s ≠ []) (h : Trimmed s t) (hlast : ∀ c, t.getLast? = some c → 0 < c) : trim s = some t := by
  by_cases hne : t = []
  · subst hne
    obtain ⟨a, b, rfl, ha, hb, -, -⟩ := h
    have hbl : ∀ c ∈ a ++ ([] ++ b), Blank c := by
      intro c hc
      simp only [List.nil_append, List.mem_append] at hc
      exact hc.elim (ha c) (hb c)
    obtain ⟨c, r, hr⟩ := List.exists_cons_of_ne_nil hs
    rw [hr] at hbl ⊢
    have hx := rtrimN_at [] [] (r ++ [0]) [] c (by
      intro x hx
      simp only [List.mem_append, List.mem_singleton] at hx
      rcases hx with hx | rfl
      · exact (hbl x (by simp [hx])).2
      · decide) (.inr rfl) (by simp)
    simp only [List.nil_append, List.length_nil, List.append_nil, List.length_append, List.length_singleton, Nat.zero_add] at hx
    rw [trim, show c :: r ++ [0] = c :: (r ++ [0]) from rfl, show (c :: r).length = r.length + 1 from rfl, hx, Option.bind_some]
    have hl := ltrim_at [c] [] 0 ((r ++ [0]).tail) (by
      intro x hx
      obtain rfl := List.mem_singleton.mp hx
      exact hbl x (by simp)) (by decide)
    simp only [List.nil_append, List.length_nil, List.singleton_append, List.length_singleton] at hl
    rw [hl, Option.bind_some]
    exact chars_at [] [c] _ (by simp)
  · obtain ⟨a, t', c, b, rfl, rfl, ha, hb, hh, hc⟩ := trimmed_at h hne hlast
    have hx := rtrimN_at [] (a ++ t') (b ++ [0]) [] c (by
      intro x hx
      simp only [List.mem_append, List.mem_singleton] at hx
      rcases hx with hx | rfl
      · exact (hb x hx).2
      · decide) (.inl hc) (by simp)
    simp only [List.nil_append, List.length_nil, List.append_nil] at hx
    rw [trim, show a ++ (t' ++ c :: b) ++ [0] = a ++ t' ++ c :: (b ++ [0]) by simp,
      show (a ++ (t' ++ c :: b)).length = (a ++ t').length + (b ++ [0]).length by simp; omega, hx, Option.bind_some]
    have hl : ltrim (a ++ t' ++ c :: 0 :: (b ++ [0]).tail) 0 = some a.length := by
      cases t' with
      | nil =>
        have := ltrim_at a [] c (0 :: (b ++ [0]).tail) ha (hh c rfl)
        simpa using this
      | cons x t' =>
        have := ltrim_at a [] x (t' ++ c :: 0 :: (b ++ [0]).tail) ha (hh x rfl)
        simpa using this
    rw [hl, Option.bind_some]
    have := chars_at (t' ++ [c]) a (b ++ [0]).tail (by
      intro e
      simp only [List.mem_append, List.mem_cons, List.not_mem_nil, or_false, not_or] at e h0
      tauto)
    simpa using this

theorem blanks (s : List Int) : ∃ a t, s = a ++ t ∧ (∀ c ∈ a, Blank c) ∧ ∀ c, t.head? = some c → ¬ Blank c := by
  induction s with
  | nil => exact ⟨[], [], rfl, by simp, by simp⟩
  | cons x s ih =>
    by_cases hx : Blank x
    · obtain ⟨a, t, rfl, ha, ht⟩ := ih
      refine ⟨x :: a, t, rfl, ?_, ht⟩
      intro c hc
      rcases List.mem_cons.mp hc with rfl | hc
      · exact hx
      · exact ha c hc
    · exact ⟨[], x :: s, rfl, by simp, by simpa using hx⟩

/-- Every string can be trimmed. -/
theorem C126_every_text (s : List Int) : ∃ t, Trimmed s t := by
  obtain ⟨a, u, rfl, ha, hu⟩ := blanks s
  obtain ⟨b, t, h, hb, ht⟩ := blanks u.reverse
  have hu' : u = t.reverse ++ b.reverse := by rw [← List.reverse_append, ← h, List.reverse_reverse]
  subst hu'
  refine ⟨t.reverse, a, b.reverse, rfl, ha, by simpa using hb, ?_, by simpa using ht⟩
  intro c hc
  refine hu c ?_
  rw [List.head?_append, hc]; rfl

/-- C126, partial: for 7-bit text that is not empty, `Trim` always gives the text without the blanks at its ends. -/
theorem C126_ascii_partial (s : List Int) (hs : s ≠ []) (h : ∀ c ∈ s, 0 < c) : ∃ t, Trimmed s t ∧ trim s = some t := by
  obtain ⟨t, ht⟩ := C126_every_text s
  refine ⟨t, ht, C126_trim_partial s t (fun e => absurd (h 0 e) (by decide)) hs ht ?_⟩
  intro c hc
  obtain ⟨a, b, rfl, -⟩ := ht
  exact h c (by simp [List.mem_of_getLast? hc])

/-- " a b " with blanks of several kinds at both ends. -/
example : Trimmed [32, 9, 97, 32, 98, 32] [97, 32, 98] ∧ At [32, 9, 97, 32, 98, 32, 0] 0 [32, 9, 97, 32, 98, 32] :=
  ⟨⟨[32, 9], [32], rfl, by simp [Blank], by simp [Blank], by simp [Blank], by simp [Blank]⟩, by simp, [], [], rfl, rfl⟩

/-- C126 is false for `strtrim` on a string of blanks: the terminator is written behind the end of the string. -/
theorem C126_blank_counterexample : strtrim [32, 32, 0] 0 = none ∧ strtrim [0] 0 = none := by decide +kernel

/-- C126 is false for `Trim` on an empty string, where it writes behind the terminator. -/
theorem C126_empty_counterexample : trim [] = none := by decide +kernel

/-- C126 is false for bytes above 127: "é" in UTF-8 loses its second byte. -/
theorem C126_utf8_counterexample : trim [-61, -87] = some [-61] ∧ Trimmed [-61, -87] [-61, -87] :=
  ⟨by decide +kernel, [], [], rfl, by simp, by simp, by simp [Blank], by simp [Blank]⟩

/-! ## C127: splitting -/

/-- C127: the tokens of a text are its pieces between delimiters that are not empty, in order. -/
theorem C127_tokens (delim : Int → Bool) (p : List Int) (ds : List (Int × List Int)) (hp : ∀ c ∈ p, delim c = false)
    (hd : ∀ x ∈ ds, delim x.1 = true ∧ ∀ c ∈ x.2, delim c = false) :
    tokens delim (p ++ ds.flatMap fun x => x.1 :: x.2) = (p :: ds.map (·.2)).filter (· ≠ []) := tokens_joined delim ds p hp hd

/-- Every text is one of those of `C127_tokens`. -/
theorem C127_every_text (delim : Int → Bool) (s : List Int) : ∃ (p : List Int) (ds : List (Int × List Int)), s = p ++ ds.flatMap (fun x => x.1 :: x.2) ∧ (∀ c ∈ p, delim c = false) ∧
    ∀ x ∈ ds, delim x.1 = true ∧ ∀ c ∈ x.2, delim c = false := by
  induction s with
  | nil => exact ⟨[], [], rfl, by simp, by simp⟩
  | cons c s ih =>
    obtain ⟨p, ds, rfl, hp, hd⟩ := ih
    cases hc : delim c with
    | false => exact ⟨c :: p, ds, rfl, by simpa [hc] using hp, hd⟩
    | true =>
      refine ⟨[], (c, p) :: ds, by simp, by simp, ?_⟩
      intro x hx
      rcases List.mem_cons.mp hx with rfl | hx
      · exact ⟨hc, hp⟩
      · exact hd x hx

/-- C127: `Explode` with a delimiter other than NUL. -/
theorem C127_explode (m : List Int) (q : Nat) (d : Int) (p : List Int) (ps : List (List Int)) (hd : d ≠ 0) (hp : d ∉ p) (hps : ∀ x ∈ ps, d ∉ x)
    (hm : At m q (p ++ ps.flatMap fun x => d :: x)) : explode d m q = some ((p :: ps).filter (· ≠ [])) := by
  obtain ⟨h0, pre, rest, rfl, rfl⟩ := hm
  rw [explode, if_neg hd, chars_at _ pre rest h0, Option.map_some]
  have := tokens_joined (fun c => c == d) (ps.map fun x => (d, x)) p (fun c hc => by simp; rintro rfl; exact hp hc) (by
    intro x hx
    obtain ⟨y, hy, rfl⟩ := List.mem_map.mp hx
    exact ⟨by simp, fun c hc => by simp; rintro rfl; exact hps y hy hc⟩)
  rw [joined, List.flatMap_map, List.map_map] at this
  rw [this]
  simp [Function.comp_def]

/-- C127: `Explode` with the delimiter NUL takes a sequence of C strings that ends with an empty one. -/
theorem C127_explode_nul (pre rest : List Int) (ts : List (List Int)) (h : ∀ t ∈ ts, t ≠ [] ∧ 0 ∉ t) :
    explode 0 (pre ++ (ts.flatMap (fun t => t ++ [0]) ++ 0 :: rest)) pre.length = some ts := by
  rw [explode, if_pos rfl, explodeNull_at ts pre rest h]

/-- C127: the constructor with an index gives that piece, empty ones included, or nothing if there are not so many. -/
theorem C127_chunk (m : List Int) (q i : Nat) (d : Int) (p : List Int) (ps : List (List Int)) (hd : d ≠ 0) (hp : d ∉ p) (hps : ∀ x ∈ ps, d ∉ x)
    (hm : At m q (p ++ ps.flatMap fun x => d :: x)) : chunk i d m q = some (((p :: ps)[i]?).getD []) := by
  obtain ⟨h0, pre, rest, rfl, rfl⟩ := hm
  have h0p : 0 ∉ p := fun e => h0 (by simp [e])
  have h0ps : ∀ x ∈ ps, 0 ∉ x := fun x hx e => h0 (by simp only [List.mem_append, List.mem_flatMap]; exact .inr ⟨x, hx, by simp [e]⟩)
  have := chunk_at d hd ps i p pre rest h0p hp fun x hx => ⟨h0ps x hx, hps x hx⟩
  rw [joined, List.flatMap_map] at this
  exact this

/-- "a,,b" at position 1. -/
example : At [7, 97, 44, 44, 98, 0, 5] 1 ([97] ++ [[], [98]].flatMap fun x => 44 :: x) ∧ explode 44 [7, 97, 44, 44, 98, 0, 5] 1 = some [[97], [98]] ∧
    chunk 1 44 [7, 97, 44, 44, 98, 0, 5] 1 = some [] ∧ chunk 2 44 [7, 97, 44, 44, 98, 0, 5] 1 = some [98] :=
  ⟨⟨by decide, [7], [5], rfl, rfl⟩, by decide +kernel⟩

/-- C127 is false for `char32_t`, where the tokeniser never returns null: whatever the text, splitting it does not end. -/
theorem C127_char32_counterexample (d : Int) (hd : d ≠ 0) (s pre rest : List Int) (h0 : 0 ∉ s) (k : Nat) :
    tokens32 d k (pre ++ (s ++ 0 :: rest)) (some pre.length) 0 = some none := by
  have step : ∀ (k : Nat) (a b : List Int), tokens32 d k (a ++ 0 :: b) none a.length = some none := by
    intro k
    induction k with
    | zero => intros; rfl
    | succ k ih =>
      intro a b
      have hs : stok32 d (a ++ 0 :: b) none a.length = some (a ++ 0 :: b, a.length, a.length) := by
        have hf : stok32.find d (a ++ d :: b) a.length = some a.length := by
          rw [stok32.find, dif_pos (lt_mid rfl), getElem_mid rfl, if_neg (by simp)]
        simp only [stok32, wr_mid rfl, Option.map_some, Option.bind_some, hf]
      have hc : chars (a ++ 0 :: b) a.length = some [] := chars_at [] a b (by simp)
      rw [tokens32, hs, Option.bind_some]
      simp only
      rw [hc, Option.bind_some, ih]
      rfl
  cases k with
  | zero => rfl
  | succ k =>
    -- the first token ends at the first delimiter or the end
    obtain ⟨u, e, v, hm, hu, he⟩ : ∃ u e v, s ++ 0 :: rest = u ++ e :: v ∧ (∀ x ∈ u, x ≠ 0 ∧ x ≠ d) ∧ (e = 0 ∨ e = d) := by
      clear step
      induction s with
      | nil => exact ⟨[], 0, rest, rfl, by simp, .inl rfl⟩
      | cons c s ih =>
        by_cases hc : c = d
        · exact ⟨[], c, s ++ 0 :: rest, rfl, by simp, .inr hc⟩
        · obtain ⟨u, e, v, h1, h2, h3⟩ := ih fun h => h0 (by simp [h])
          refine ⟨c :: u, e, v, by simp [h1], ?_, h3⟩
          intro x hx
          rcases List.mem_cons.mp hx with rfl | hx
          · exact ⟨fun h => h0 (by simp [h]), hc⟩
          · exact h2 x hx
    have hf : ∀ (u a : List Int), (∀ x ∈ u, x ≠ 0 ∧ x ≠ d) → stok32.find d (a ++ (u ++ e :: v)) a.length = some (a.length + u.length) := by
      intro u
      induction u with
      | nil =>
        intro a _
        rw [List.nil_append, stok32.find, dif_pos (lt_mid rfl), getElem_mid rfl, if_neg (by rintro ⟨h1, h2⟩; exact he.elim h1 h2)]
        rfl
      | cons x u ih =>
        intro a h
        have := ih (a ++ [x]) fun y hy => h y (by simp [hy])
        rw [List.cons_append, stok32.find, dif_pos (lt_mid rfl), getElem_mid rfl, if_pos (h x (by simp))]
        simp only [List.append_assoc, List.singleton_append, List.length_append, List.length_singleton] at this
        rw [this]
        simp; omega
    have hs : stok32 d (pre ++ (u ++ e :: v)) (some pre.length) 0 = some (pre ++ u ++ 0 :: v, (pre ++ u).length, pre.length) := by
      simp only [stok32, Option.bind_some, hf u pre hu]
      rw [← List.append_assoc, wr_mid (by simp)]
      simp
    have hc : chars (pre ++ u ++ 0 :: v) pre.length = some u := by
      rw [List.append_assoc]; exact chars_at u pre v fun h => (hu 0 h).1 rfl
    rw [hm, tokens32, hs, Option.bind_some]
    simp only
    rw [hc, Option.bind_some, step]
    rfl

/-! ## C128: counting, replacing, removing -/

/-- C128: `strreplace` replaces every occurrence in the string and changes nothing else. -/
theorem C128_strreplace (f r : Int) (pre s rest : List Int) (h0 : 0 ∉ s) :
    strreplace f r (pre ++ (s ++ 0 :: rest)) pre.length = some (pre ++ (s.map (fun c => if c = f then r else c) ++ 0 :: rest)) := strreplace_at s pre rest f r h0

/-- C128: `ReplaceChar`. -/
theorem C128_replace (f r : Int) (s : List Int) : replaceChar f r s = s.map (fun c => if c = f then r else c) := by
  rw [replaceChar]; simpa using replaceFrom_at f r s []

/-- C128: `strccount` counts the occurrences up to the terminator. -/
theorem C128_count (c : Int) (m : List Int) (p : Nat) (s : List Int) (h : At m p s) : strccount c m p = some (s.count c) := by
  obtain ⟨h0, pre, rest, rfl, rfl⟩ := h
  exact strccount_at s pre rest c h0

/-- C128: `StripChar` keeps the other characters in their order. -/
theorem C128_strip (c : Int) (m : List Int) (p : Nat) (s : List Int) (h : At m p s) : stripChar c m p = some (s.filter (· ≠ c)) := by
  obtain ⟨h0, pre, rest, rfl, rfl⟩ := h
  exact stripChar_at c s pre rest h0

/-- C128, partial: `strccount` with a length counts among the first characters, if the string has so many. -/
theorem C128_count_length_partial (c : Int) (m : List Int) (p n : Nat) (s : List Int) (h : At m p s) (hn : n ≤ s.length) :
    strccountN c m p n = some ((s.take n).count c) := by
  obtain ⟨h0, pre, rest, rfl, rfl⟩ := h
  cases s with
  | nil => obtain rfl : n = 0 := by simpa using hn
           rfl
  | cons x s =>
    cases n with
    | zero => rfl
    | succ n =>
      have := countN_at ((x :: s).take (n + 1)) pre [] ((x :: s).drop (n + 1) ++ 0 :: rest) c x (by simp) (fun e => h0 (by simp [e]))
      rw [← List.append_assoc (List.take _ _), List.take_append_drop, List.length_take, Nat.min_eq_left hn] at this
      exact this

example : At [9, 97, 98, 97, 0] 1 [97, 98, 97] ∧ strccount 97 [9, 97, 98, 97, 0] 1 = some 2 ∧ stripChar 97 [9, 97, 98, 97, 0] 1 = some [98] :=
  ⟨⟨by simp, [9], [], rfl, rfl⟩, by decide +kernel⟩

/-- C128 is false for a length beyond the end of the string: characters behind the terminator are counted, and read where there are none. -/
theorem C128_count_length_counterexample : strccountN 97 [97, 0, 97] 0 3 = some 2 ∧ strccountN 97 [97, 0] 0 3 = none := by decide +kernel

/-! ## C129: command lines -/

/-- C129: on every C string, counting the arguments (with a null `argv`) is defined and changes nothing; storing them afterwards is defined, stores as many pointers as were counted
and changes nothing outside of the string. -/
theorem C129_count (m : List Int) (p : Nat) (s : List Int) (h : At m p s) :
    ∃ m' ps n, toArgV false m p = some (m, ps, n) ∧ toArgV true m p = some (m', ps, n) ∧ ps.length = n ∧ m'.length = m.length ∧
      ∀ i, i < p ∨ p + s.length ≤ i → m'[i]? = m[i]? := by
  obtain ⟨h0, pre, rest, rfl, rfl⟩ := h
  obtain ⟨s', ps, h1, h2, h3⟩ := argv_total s.length s pre pre rest (Nat.le_refl _) h0 rfl
  refine ⟨_, ps, ps.length, by rw [toArgV, h3]; rfl, by rw [toArgV, h1]; rfl, rfl, by simp [h2], ?_⟩
  intro i hi
  rcases hi with hi | hi
  · rw [List.getElem?_append_left hi, List.getElem?_append_left hi]
  · rw [← List.append_assoc, ← List.append_assoc, List.getElem?_append_right (by simp [h2]; omega), List.getElem?_append_right (by simp; omega)]
    simp [h2]

/-- C129, partial: the arguments of a command line whose quotes are closed are found, each as a C string of its own. -/
theorem C129_args_partial (m : List Int) (p : Nat) (s : List Int) (as : List (List Int)) (h : At m p s) (hl : Line s as) :
    ∃ m' ps, toArgV true m p = some (m', ps, as.length) ∧ List.Forall₂ (At m') ps as := by
  obtain ⟨h0, pre, rest, rfl, rfl⟩ := h
  obtain ⟨s', ps, h1, h2⟩ := argv_line s.length s as (Nat.le_refl _) hl pre rest h0
  refine ⟨pre ++ (s' ++ 0 :: rest), ps, by rw [toArgV, h1]; simp [h2.length_eq], ?_⟩
  have hz : ∀ a ∈ as, 0 ∉ a := by
    clear h1 h2
    induction hl with
    | done => simp
    | plain w a t as _ _ _ _ _ _ ih =>
      intro b hb e
      rcases List.mem_cons.mp hb with rfl | hb
      · exact h0 (by simp [e])
      · exact ih (fun e => h0 (by simp [e])) b hb e
    | quoted w a t as _ _ _ _ ih =>
      intro b hb e
      rcases List.mem_cons.mp hb with rfl | hb
      · exact h0 (by simp [e])
      · exact ih (fun e => h0 (by simp [e])) b hb e
  generalize pre ++ (s' ++ 0 :: rest) = m' at h2
  clear h1 hl
  induction h2 with
  | nil => exact .nil
  | cons hx _ ih =>
    obtain ⟨u, v, hu, hm⟩ := hx
    exact .cons ⟨hz _ (by simp), u, v, hu, hm⟩ (ih fun a ha => hz a (by simp [ha]))

/-- `a "b c"  "" d"`. -/
example : Line [97, 32, 34, 98, 32, 99, 34, 32, 32, 34, 34, 32, 100, 34] [[97], [98, 32, 99], [], [100, 34]] := by
  refine .plain [] [97] [32, 34, 98, 32, 99, 34, 32, 32, 34, 34, 32, 100, 34] _ (by simp) (by simp) (by simp [White]) (by simp) (by simp [White]) ?_
  refine .quoted [32] [98, 32, 99] [32, 32, 34, 34, 32, 100, 34] _ (by simp [White]) ?_ (by simp [White]) ?_
  · intro u x v h
    have : (34 : Int) ∈ [98, 32, 99] := by rw [h]; simp
    simp at this
  refine .quoted [32, 32] [] [32, 100, 34] _ (by simp [White]) (by intro u x v h; simp at h) (by simp [White]) ?_
  exact .plain [32] [100, 34] [] _ (by simp [White]) (by simp) (by simp [White]) (by simp) (by simp) (.done [] (by simp))

/-- C129 is false for a quote that is not closed: the last character is lost. -/
theorem C129_quote_counterexample : toArgV true [34, 97, 98, 0] 0 = some ([34, 97, 0, 0], [1], 1) := by decide +kernel

theorem cmdLoop_spec (d : Int) (rest : List (List Int)) : ∀ cur : List (List Int), cur ≠ [] → (∀ a ∈ cur.tail, a.head? ≠ some d) →
    (cmdLoop d cur rest).flatten = cur ++ rest ∧ (∀ g ∈ cmdLoop d cur rest, g ≠ [] ∧ ∀ a ∈ g.tail, a.head? ≠ some d) ∧
      (∀ g ∈ (cmdLoop d cur rest).tail, ∃ a, g.head? = some a ∧ a.head? = some d) ∧ ∃ g gs, cmdLoop d cur rest = g :: gs ∧ g.head? = cur.head? := by
  induction rest with
  | nil => intro cur hc ht; simp [cmdLoop, hc]; exact ht
  | cons a rest ih =>
    intro cur hc ht
    rw [cmdLoop]
    split
    · rename_i hd
      obtain ⟨h1, h2, h3, g, gs, h4, h5⟩ := ih [a] (by simp) (by simp)
      refine ⟨by simp [h1], ?_, ?_, cur, _, rfl, rfl⟩
      · intro g hg
        rcases List.mem_cons.mp hg with rfl | hg
        · exact ⟨hc, ht⟩
        · exact h2 g hg
      · intro g' hg
        rw [List.tail_cons, h4] at hg
        rcases List.mem_cons.mp hg with rfl | hg
        · exact ⟨a, by simpa using h5, hd⟩
        · exact h3 g' (by rw [h4]; exact hg)
    · rename_i hd
      obtain ⟨h1, h2, h3, g, gs, h4, h5⟩ := ih (cur ++ [a]) (by simp) (by
        intro b hb
        obtain ⟨x, cur, rfl⟩ := List.exists_cons_of_ne_nil hc
        simp only [List.cons_append, List.tail_cons, List.mem_append, List.mem_singleton] at hb
        rcases hb with hb | rfl
        · exact ht b hb
        · exact hd)
      refine ⟨by simp [h1], h2, h3, g, gs, h4, ?_⟩
      rw [h5]
      obtain ⟨x, cur, rfl⟩ := List.exists_cons_of_ne_nil hc
      rfl

/-- C129: `ProcessCmdArgs` passes on every argument once and in order, in groups; every group but the first starts with the divider, and no argument within a group does. -/
theorem C129_groups (d : Int) (args : List (List Int)) :
    (processCmdArgs d args).flatten = args ∧ (∀ g ∈ processCmdArgs d args, g ≠ [] ∧ ∀ a ∈ g.tail, a.head? ≠ some d) ∧
      ∀ g ∈ (processCmdArgs d args).tail, ∃ a, g.head? = some a ∧ a.head? = some d := by
  cases args with
  | nil => simp [processCmdArgs]
  | cons a args =>
    obtain ⟨h1, h2, h3, -⟩ := cmdLoop_spec d args [a] (by simp) (by simp)
    exact ⟨h1, h2, h3⟩

example : processCmdArgs 45 [[112], [120], [45, 97], [98], [99], [45, 100]] = [[[112], [120]], [[45, 97], [98], [99]], [[45, 100]]] := by decide +kernel

/-! ## C130: formats -/

/-- C130: `SafeFormat` writes the characters of the format with each placeholder `{n}` replaced by the text of the argument with that number, or by a note if there is no such argument; text that comes from
an argument is not looked at again. Reading the format never goes beyond its end. -/
theorem C130_format (args : List (List Int)) (m : List Int) (p : Nat) (s : List Int) (r : List (Int ⊕ Int)) (h : At m p s) (hr : Reads s r) :
    safeFormat args m p = some (r.flatMap fun
      | .inl c => [c]
      | .inr n => (args[n.toNat]?).getD (lit "{INVALID PARAMETER " ++ lit (toString n) ++ lit "}")) := by
  obtain ⟨h0, pre, rest, rfl, rfl⟩ := h
  obtain ⟨o, h1, h2⟩ := format_reads hr pre [] rest h0
  simp only [List.nil_append, List.length_nil, Nat.add_zero, List.map_nil] at h1 h2
  rw [safeFormat, h1, Option.map_some]
  have hn : ∀ n, .inr n ∈ r → 0 ≤ n := by
    clear h1 h2
    induction hr with
    | done => simp
    | arg h t n r hh _ ih =>
      intro k hk
      simp only [List.mem_cons, Sum.inr.injEq] at hk
      rcases hk with rfl | hk
      · cases hh with
        | one d hd => unfold Digit at hd; omega
        | two d e hd he => unfold Digit at hd he; omega
      · exact ih (fun e => h0 (by simp [e])) k hk
    | char c t r _ _ ih =>
      intro k hk
      exact ih (fun e => h0 (by simp [e])) k (by simpa using hk)
  subst h2
  congr 1
  clear h1 hr
  induction o with
  | nil => rfl
  | cons x o ih =>
    have hfl : flat (x :: o) = flat [x] ++ flat o := flat_append [x] o
    rw [hfl] at hn ⊢
    rw [List.flatMap_cons, List.flatMap_append, ih fun n hh => hn n (by simp [hh])]
    congr 1
    cases x with
    | text t =>
      simp only [flat, List.flatMap_cons, List.flatMap_nil, List.append_nil, List.flatMap_map]
      simp
    | arg n =>
      have h1 : 0 ≤ n := hn n (by simp [flat])
      obtain ⟨k, rfl⟩ : ∃ k : Nat, n = k := ⟨n.toNat, by omega⟩
      have := pick_eq args 0 k
      rw [show ((args.length : Int) + (0 : Nat) - 1) = (args.length : Int) - 1 by omega, show ((k : Int) + (0 : Nat)) = k by omega] at this
      simp only [flat, List.flatMap_cons, List.flatMap_nil, List.append_nil, this, Int.toNat_natCast, invalid]

/-- Every format can be read in this way. -/
theorem C130_every_format (s : List Int) : ∃ r, Reads s r := reads_total s.length s (Nat.le_refl _)

/-- `{{1}x{12}` with two arguments. -/
example : safeFormat [[97], [98, 99]] ([123, 123, 49, 125, 120, 123, 49, 50, 125, 0]) 0 = some ([123, 98, 99, 120] ++ lit "{INVALID PARAMETER 12}") := by decide +kernel

example : Reads [123, 49, 50, 125, 120] [.inr 12, .inl 120] :=
  .arg [123, 49, 50, 125] [120] 12 _ (.two 49 50 (by simp [Digit]) (by simp [Digit])) (.char 120 [] _ (by rintro h n t' (_ | _) <;> simp) .done)

end Verif.Text
