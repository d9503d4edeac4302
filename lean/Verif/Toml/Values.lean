import Verif.Toml.Scalars
/-!
# Reading values, inline tables and the lines of a section
-/

namespace Verif.Toml
open Verif.Json (isSpace isDigit decNum splitSign cstr)

variable {D : Type}

theorem eatAll_le (s : List Char) : (eatAll s).length ≤ s.length := by
  induction h : s.length using Nat.strongRecOn generalizing s with
  | ind n ih =>
    cases s with
    | nil => rw [eatAll]; exact Nat.zero_le _
    | cons c s =>
      rw [List.length_cons] at h
      rw [eatAll]
      split
      · have h1 := toNl_le s
        have h2 := ih (toNl s).length (by omega) (toNl s) rfl
        omega
      · split
        · have h2 := ih s.length (by omega) s rfl
          omega
        · rw [List.length_cons]; omega

/-- The characters with which a value starts. -/
def Head (c : Char) : Prop := NumHead c ∨ c = '"' ∨ c = '\'' ∨ c = '[' ∨ c = '{'

theorem head_facts {c : Char} (h : Head c) : isSpace c = false ∧ c ≠ '#' ∧ c ≠ ']' := by
  rcases h with h | rfl | rfl | rfl | rfl
  · have := numHead_facts h
    exact ⟨this.2.2.2.1, this.2.2.2.2.1, this.2.2.2.2.2⟩
  all_goals decide

theorem val_head {fp : FP D} {t : Ty} {old new : t.Val D} {x : List Char} (h : ValText fp t old new x) : ∃ c y, x = c :: y ∧ Head c := by
  cases t with
  | str =>
    change StrForm new x at h
    cases h with
    | basic => exact ⟨_, _, rfl, Or.inr (Or.inl rfl)⟩
    | literal => exact ⟨_, _, rfl, Or.inr (Or.inr (Or.inl rfl))⟩
    | multi => exact ⟨_, _, rfl, Or.inr (Or.inl rfl)⟩
    | multiLit => exact ⟨_, _, rfl, Or.inr (Or.inr (Or.inl rfl))⟩
  | int =>
    obtain ⟨c, y, rfl, hc⟩ := intForm_head (show Int64Form new x from h).1
    exact ⟨c, y, rfl, Or.inl hc⟩
  | dbl =>
    obtain ⟨c, y, rfl, hc⟩ := (show fp.Reads new x from h).1
    exact ⟨c, y, rfl, Or.inl hc⟩
  | bool =>
    change x = bif (new : Bool) then _ else _ at h
    rw [h]
    have ht : BareChar 't' := Or.inl ⟨by decide, by decide⟩
    have hf : BareChar 'f' := Or.inl ⟨by decide, by decide⟩
    cases hn : (new : Bool)
    · exact ⟨'f', "alse".toList, rfl, Or.inl (Or.inl hf)⟩
    · exact ⟨'t', "rue".toList, rfl, Or.inl (Or.inl ht)⟩
  | arr t =>
    obtain ⟨l, g, b, -, -, rfl, -⟩ := h
    exact ⟨_, _, rfl, Or.inr (Or.inr (Or.inr (Or.inl rfl)))⟩
  | obj fs =>
    obtain ⟨g, b, -, rfl, -⟩ := h
    exact ⟨_, _, rfl, Or.inr (Or.inr (Or.inr (Or.inr rfl)))⟩

/-- What a value leaves in the stream: an array its bracket, `false` all but its first letter. -/
def Rem (t : Ty) (rem : List Char) : Prop :=
  bif t.isArr then ∃ q, rem = ']' :: q ∧ ∀ c ∈ q, c = ']' ∨ Blank c else ∀ c ∈ rem, BareChar c

theorem rem_inline {t : Ty} {rem : List Char} (h : Rem t rem) : ∀ c ∈ rem, ¬InlineStop c := by
  intro c hc
  rw [Rem] at h
  have hb : BareChar c ∨ c = ']' ∨ Blank c := by
    cases ht : t.isArr
    · rw [ht] at h; exact Or.inl (h c hc)
    · rw [ht] at h
      obtain ⟨q, rfl, hq⟩ := h
      rcases List.mem_cons.1 hc with rfl | hc
      · exact Or.inr (Or.inl rfl)
      · exact Or.inr (hq c hc)
  rcases hb with hb | rfl | (rfl | rfl)
  · rintro (h | rfl | rfl)
    · exact bareChar_nl hb h
    · exact bareChar_ne hb (by decide) rfl
    · exact bareChar_ne hb (by decide) rfl
  all_goals
    unfold InlineStop NL
    decide

theorem stops_app {w s : List Char} (hw : ∀ c ∈ w, Blank c ∨ NL c) (hs : Stops s) : Stops (w ++ s) := by
  cases w with
  | nil => exact hs
  | cons d w =>
    intro c hc
    cases hc
    exact Or.inr (Or.inr (Or.inr (Or.inr (hw d (List.mem_cons_self ..)))))

theorem stops_cons {c : Char} (h : c = ',' ∨ c = ']' ∨ c = '}' ∨ c = '#' ∨ Blank c ∨ NL c) (s : List Char) : Stops (c :: s) := by
  intro d hd
  cases hd
  exact h

theorem items_head {α : Type} {P : α → List Char → Prop} (hh : ∀ x t, P x t → ∃ c y, t = c :: y ∧ Head c) {l : List α} {b : List Char} (h : Items P l b) :
    ∃ c y, b = c :: y ∧ c ≠ '#' ∧ isSpace c = false := by
  cases h with
  | nil => exact ⟨_, _, rfl, by decide, by decide⟩
  | last hx =>
    obtain ⟨c, y, rfl, hc⟩ := hh _ _ hx
    exact ⟨c, _, rfl, (head_facts hc).2.1, (head_facts hc).1⟩
  | cons hx =>
    obtain ⟨c, y, rfl, hc⟩ := hh _ _ hx
    exact ⟨c, _, rfl, (head_facts hc).2.1, (head_facts hc).1⟩

theorem white_skip {c : Char} (h : Blank c ∨ NL c) : (!(c == ',' || c == ']')) = true := by
  rcases h with (rfl | rfl) | (rfl | rfl) <;> rfl

theorem bare_skip {c : Char} (h : BareChar c) : (!(c == ',' || c == ']')) = true := by
  simp [bareChar_ne h (x := ',') (by decide), (bareChar_range h).2.2.2.2.2]

theorem items_ok {α : Type} {add : List Char → R (α × List Char)} {P : α → List Char → Prop} (hh : ∀ x t, P x t → ∃ c y, t = c :: y ∧ Head c)
    (hadd : ∀ x t r, P x t → Stops r → ∃ rem, (∀ c ∈ rem, BareChar c) ∧ add (t ++ r) = .ok (x, rem ++ r)) {l : List α} {b : List Char} (h : Items P l b) :
    ∀ (n : Nat) (acc : List α) (r : List Char), (b ++ r).length < n → arrLoop add n acc (b ++ r) = .ok (acc ++ l, ']' :: r) := by
  induction h with
  | nil =>
    intro n acc r hn
    obtain ⟨n, rfl⟩ : ∃ m, n = m + 1 := ⟨n - 1, by omega⟩
    rw [List.singleton_append, arrLoop, if_pos rfl, List.append_nil]
  | @last x t w hx hw =>
    intro n acc r hn
    obtain ⟨c, y, ht, hc⟩ := hh _ _ hx
    have hlen : t.length = y.length + 1 := by rw [ht]; rfl
    simp only [List.length_append, List.length_cons, List.length_nil] at hn
    obtain ⟨n, rfl⟩ : ∃ m, n = m + 2 := ⟨n - 2, by omega⟩
    have e : t ++ (w ++ [']']) ++ r = t ++ (w ++ ']' :: r) := by simp
    obtain ⟨rem, hrem, hadd⟩ := hadd x t (w ++ ']' :: r) hx (stops_app hw (stops_cons (Or.inr (Or.inl rfl)) _))
    rw [e]
    rw [ht] at hadd ⊢
    rw [List.cons_append] at hadd ⊢
    rw [arrLoop, if_neg (head_facts hc).2.2, hadd]
    dsimp only
    rw [dropWhile_all fun c hc => bare_skip (hrem c hc), dropWhile_all fun c hc => white_skip (hw c hc), dropWhile_head (fun d hd => by cases hd; rfl), eat1_ne (by decide),
      eatAll_cons (by decide) (by decide), arrLoop, if_pos rfl]
  | @cons x l t w g b hx hw hg hi ih =>
    intro n acc r hn
    obtain ⟨c, y, ht, hc⟩ := hh _ _ hx
    have hlen : t.length = y.length + 1 := by rw [ht]; rfl
    simp only [List.length_append, List.length_cons] at hn
    obtain ⟨n, rfl⟩ : ∃ m, n = m + 1 := ⟨n - 1, by omega⟩
    have e : t ++ (w ++ ',' :: (g ++ b)) ++ r = t ++ (w ++ ',' :: (g ++ (b ++ r))) := by simp
    obtain ⟨rem, hrem, hadd⟩ := hadd x t (w ++ ',' :: (g ++ (b ++ r))) hx (stops_app hw (stops_cons (Or.inl rfl) _))
    obtain ⟨d, z, hb, hd1, hd2⟩ := items_head hh hi
    have he : eatAll (b ++ r) = b ++ r := by rw [hb, List.cons_append, eatAll_cons hd1 hd2]
    rw [e]
    rw [ht] at hadd ⊢
    rw [List.cons_append] at hadd ⊢
    rw [arrLoop, if_neg (head_facts hc).2.2, hadd]
    dsimp only
    rw [dropWhile_all fun c hc => bare_skip (hrem c hc), dropWhile_all fun c hc => white_skip (hw c hc), dropWhile_head (fun d hd => by cases hd; rfl), eat1_eq, eatAll_gap hg, he,
      ih n _ r (by rw [List.length_append]; omega), List.append_assoc]
    rfl

theorem nested_ok {α : Type} {add : List Char → R (α × List Char)} {P : α → List Char → Prop} (hh : ∀ x t, P x t → ∃ c y, t = c :: y ∧ Head c)
    (hadd : ∀ x t r, P x t → Stops r → ∃ q, (∀ c ∈ q, c = ']' ∨ Blank c) ∧ add (t ++ r) = .ok (x, ']' :: (q ++ r))) {l : List α} {b : List Char} (h : Nested P l b)
    (n : Nat) (acc : List α) (r : List Char) (hn : (b ++ r).length < n) : ∃ q, (∀ c ∈ q, c = ']' ∨ Blank c) ∧ arrLoop add n acc (b ++ r) = .ok (acc ++ l, ']' :: (q ++ r)) := by
  cases h with
  | nil =>
    obtain ⟨n, rfl⟩ : ∃ m, n = m + 1 := ⟨n - 1, by omega⟩
    refine ⟨[], fun c hc => (List.not_mem_nil hc).elim, ?_⟩
    rw [List.singleton_append, arrLoop, if_pos rfl, List.append_nil, List.nil_append]
  | @one x t w hx hw =>
    obtain ⟨c, y, ht, hc⟩ := hh _ _ hx
    have hlen : t.length = y.length + 1 := by rw [ht]; rfl
    simp only [List.length_append, List.length_cons, List.length_nil] at hn
    obtain ⟨n, rfl⟩ : ∃ m, n = m + 2 := ⟨n - 2, by omega⟩
    have e : t ++ (w ++ [']']) ++ r = t ++ (w ++ ']' :: r) := by simp
    obtain ⟨q, hq, hadd⟩ := hadd x t (w ++ ']' :: r) hx (stops_app (fun c hc => Or.inl (hw c hc)) (stops_cons (Or.inr (Or.inl rfl)) _))
    refine ⟨q ++ (w ++ [']']), ?_, ?_⟩
    · intro a ha
      rcases List.mem_append.1 ha with ha | ha
      · exact hq a ha
      · rcases List.mem_append.1 ha with ha | ha
        · exact Or.inr (hw a ha)
        · exact Or.inl (List.mem_singleton.1 ha)
    · rw [e]
      rw [ht] at hadd ⊢
      rw [List.cons_append] at hadd ⊢
      rw [arrLoop, if_neg (head_facts hc).2.2, hadd]
      dsimp only
      rw [dropWhile_head (fun d hd => by cases hd; rfl), eat1_ne (by decide), eatAll_cons (by decide) (by decide), arrLoop, if_pos rfl]
      simp

theorem keyVal_ok {V : Type} {f : Key → V → List Char → R (V × List Char)} {k : Key} {kt b : List Char} (hk : KeyText k kt) (hb : Blanks b) {v v' : V} {s s' : List Char}
    (hf : f k v s = .ok (v', s')) : keyVal f v (kt ++ (b ++ '=' :: s)) = .ok (true, v', s') := by
  obtain ⟨b', hb', -, e⟩ := parseString_key (e1 := '=') (e2 := '\x00') (r := s) (e := '=') ⟨by unfold BareChar; decide, by unfold Blank; decide⟩
    ⟨by unfold BareChar; decide, by unfold Blank; decide⟩ hk hb (Or.inl rfl) ⟨by decide, by decide⟩ (by unfold Blank; decide)
  rw [keyVal, e]
  dsimp only
  rw [eatWs_blanks hb', eatWs_cons (by unfold Blank; decide)]
  dsimp only
  rw [if_pos rfl, key_cstr hk, hf]

theorem keyHead_facts {c : Char} (h : BareChar c ∨ c = '"' ∨ c = '\'') : c ≠ '}' ∧ isNl c = false ∧ ¬Blank c ∧ c ≠ '[' ∧ c ≠ '#' ∧ isSpace c = false ∧ c ≠ '.' ∧ c ≠ ']' := by
  rcases h with h | rfl | rfl
  · exact ⟨bareChar_ne h (by decide), isNl_false (bareChar_nl h), bareChar_blank h, (bareChar_range h).2.2.2.2.1, bareChar_ne h (by decide), bareChar_space h, (bareChar_range h).2.2.1,
      (bareChar_range h).2.2.2.2.2⟩
  all_goals
    unfold Blank
    decide

theorem pairs_head {V : Type} {F : Key → V → V → List Char → Prop} {v v' : V} {b : List Char} (h : Pairs F v v' b) : ∃ c y, b = c :: y ∧ ¬Blank c ∧ c ≠ '#' ∧ isSpace c = false := by
  cases h with
  | nil => exact ⟨_, _, rfl, by unfold Blank; decide, by decide, by decide⟩
  | last hk =>
    obtain ⟨c, y, rfl, hc⟩ := key_head hk
    have f := keyHead_facts hc
    exact ⟨c, _, rfl, f.2.2.1, f.2.2.2.2.1, f.2.2.2.2.2.1⟩
  | cons hk =>
    obtain ⟨c, y, rfl, hc⟩ := key_head hk
    have f := keyHead_facts hc
    exact ⟨c, _, rfl, f.2.2.1, f.2.2.2.2.1, f.2.2.2.2.2.1⟩

theorem inline_skip {c : Char} (h : ¬InlineStop c) : (!(isNl c || c == ',' || c == '}')) = true := by
  have h1 : ¬NL c := fun h' => h (Or.inl h')
  have h2 : c ≠ ',' := fun h' => h (Or.inr (Or.inl h'))
  have h3 : c ≠ '}' := fun h' => h (Or.inr (Or.inr h'))
  simp [isNl_false h1, h2, h3]

theorem blank_inline {c : Char} (h : Blank c) : ¬InlineStop c := by
  rcases h with rfl | rfl <;> (unfold InlineStop NL; decide)

/-- How the reading of a field relates to the texts of the field. -/
def FieldOk {V : Type} (stop : Char → Prop) (f : Key → V → List Char → R (V × List Char)) (F : Key → V → V → List Char → Prop) : Prop :=
  ∀ k v v' x b r, F k v v' x → Blanks b → Stops r → ∃ rem, (∀ c ∈ rem, ¬stop c) ∧ f k v (b ++ (x ++ r)) = .ok (v', rem ++ r)

theorem pairs_ok {V : Type} {f : Key → V → List Char → R (V × List Char)} {F : Key → V → V → List Char → Prop} (hf : FieldOk InlineStop f F) {v v' : V} {b : List Char}
    (h : Pairs F v v' b) : ∀ (n : Nat) (r : List Char), (b ++ r).length < n → tblLoop f n v (b ++ r) = .ok (v', r) := by
  induction h with
  | nil =>
    intro n r hn
    obtain ⟨n, rfl⟩ : ∃ m, n = m + 1 := ⟨n - 1, by omega⟩
    rw [List.singleton_append, tblLoop, if_pos rfl]
  | @last k v v' kt b1 b2 x w hk h1 h2 hF hw =>
    intro n r hn
    simp only [List.length_append, List.length_cons, List.length_nil] at hn
    obtain ⟨n, rfl⟩ : ∃ m, n = m + 2 := ⟨n - 2, by omega⟩
    have e : kt ++ (b1 ++ '=' :: (b2 ++ (x ++ (w ++ ['}'])))) ++ r = kt ++ (b1 ++ '=' :: (b2 ++ (x ++ (w ++ '}' :: r)))) := by simp
    obtain ⟨rem, hrem, hf⟩ := hf k v v' x b2 (w ++ '}' :: r) hF h2 (stops_app (fun c hc => Or.inl (hw c hc)) (stops_cons (Or.inr (Or.inr (Or.inl rfl))) _))
    have hkv := keyVal_ok hk h1 hf
    obtain ⟨c, y, ht, hc⟩ := key_head hk
    have fc := keyHead_facts hc
    rw [e]
    rw [ht] at hkv ⊢
    rw [List.cons_append] at hkv ⊢
    rw [tblLoop, if_neg fc.1, if_neg (by simp [fc.2.1]), hkv]
    dsimp only
    rw [dropWhile_all fun c hc => inline_skip (hrem c hc), dropWhile_all fun c hc => inline_skip (blank_inline (hw c hc)), dropWhile_head (fun d hd => by cases hd; rfl),
      eat1_ne (by decide), eatWs_cons (by unfold Blank; decide), tblLoop, if_pos rfl]
  | @cons k v v' v'' kt b1 b2 x w b3 b hk h1 h2 hF hw h3 hP ih =>
    intro n r hn
    simp only [List.length_append, List.length_cons] at hn
    obtain ⟨n, rfl⟩ : ∃ m, n = m + 1 := ⟨n - 1, by omega⟩
    have e : kt ++ (b1 ++ '=' :: (b2 ++ (x ++ (w ++ ',' :: (b3 ++ b))))) ++ r = kt ++ (b1 ++ '=' :: (b2 ++ (x ++ (w ++ ',' :: (b3 ++ (b ++ r)))))) := by simp
    obtain ⟨rem, hrem, hf⟩ := hf k v v' x b2 (w ++ ',' :: (b3 ++ (b ++ r))) hF h2 (stops_app (fun c hc => Or.inl (hw c hc)) (stops_cons (Or.inl rfl) _))
    have hkv := keyVal_ok hk h1 hf
    obtain ⟨c, y, ht, hc⟩ := key_head hk
    have fc := keyHead_facts hc
    obtain ⟨d, z, hb, hd, -⟩ := pairs_head hP
    have he : eatWs (b ++ r) = b ++ r := by rw [hb, List.cons_append, eatWs_cons hd]
    rw [e]
    rw [ht] at hkv ⊢
    rw [List.cons_append] at hkv ⊢
    rw [tblLoop, if_neg fc.1, if_neg (by simp [fc.2.1]), hkv]
    dsimp only
    rw [dropWhile_all fun c hc => inline_skip (hrem c hc), dropWhile_all fun c hc => inline_skip (blank_inline (hw c hc)), dropWhile_head (fun d hd => by cases hd; rfl),
      eat1_eq, eatWs_blanks h3, he, ih n r (by rw [List.length_append]; omega)]

/-- What can follow a section: another one, or the end. -/
def SecEnd (eof : Bool) (r : List Char) : Prop := r = [] ∨ eof = false ∧ ∃ q, r = '[' :: q

theorem secEnd_eatAll {eof : Bool} {r : List Char} (h : SecEnd eof r) : eatAll r = r := by
  rcases h with rfl | ⟨-, q, rfl⟩
  · exact eatAll_nil
  · exact eatAll_cons (by decide) (by decide) q

theorem body_ok {V : Type} {f : Key → V → List Char → R (V × List Char)} {F : Key → V → V → List Char → Prop} (hf : FieldOk NL f F) {eof : Bool} {v v' : V} {x : List Char}
    (h : Body F eof v v' x) : ∀ (n : Nat) (r : List Char), SecEnd eof r → (eatAll (x ++ r)).length < n → pairsLoop f n v (eatAll (x ++ r)) = .ok (v', r) := by
  have fin : ∀ (n : Nat) (v : V) (r : List Char), SecEnd eof r → pairsLoop f (n + 1) v r = .ok (v, r) := by
    intro n v r hr
    rcases hr with rfl | ⟨-, q, rfl⟩
    · rw [pairsLoop]
    · rw [pairsLoop, if_pos rfl]
  induction h with
  | gap hg =>
    intro n r hr hn
    obtain ⟨n, rfl⟩ : ∃ m, n = m + 1 := ⟨n - 1, by omega⟩
    rw [eatAll_gap hg, secEnd_eatAll hr, fin n _ r hr]
  | @line k v v' v'' g kt b1 b2 x y b c hg hk h1 h2 hF hs hy hc hB ih =>
    intro n r hr hn
    have e : g ++ (kt ++ (b1 ++ '=' :: (b2 ++ (x ++ (y ++ c :: b))))) ++ r = g ++ (kt ++ (b1 ++ '=' :: (b2 ++ (x ++ (y ++ c :: (b ++ r)))))) := by simp
    obtain ⟨d, z, ht, hd⟩ := key_head hk
    have fd := keyHead_facts hd
    have he : eatAll (kt ++ (b1 ++ '=' :: (b2 ++ (x ++ (y ++ c :: (b ++ r)))))) = kt ++ (b1 ++ '=' :: (b2 ++ (x ++ (y ++ c :: (b ++ r))))) := by
      rw [ht, List.cons_append, eatAll_cons fd.2.2.2.2.1 fd.2.2.2.2.2.1]
    rw [e, eatAll_gap hg, he] at hn ⊢
    have hlen : (eatAll (b ++ r)).length ≤ b.length + r.length := by
      have := eatAll_le (b ++ r)
      rwa [List.length_append] at this
    simp only [List.length_append, List.length_cons] at hn
    obtain ⟨n, rfl⟩ : ∃ m, n = m + 1 := ⟨n - 1, by omega⟩
    have hst : Stops (y ++ c :: (b ++ r)) := by
      cases y with
      | nil => exact stops_cons (Or.inr (Or.inr (Or.inr (Or.inr (Or.inr hc))))) _
      | cons a y => intro a' ha; cases ha; exact hs _ rfl
    obtain ⟨rem, hrem, hf⟩ := hf k v v' x b2 (y ++ c :: (b ++ r)) hF h2 hst
    have hkv := keyVal_ok hk h1 hf
    rw [ht] at hkv ⊢
    rw [List.cons_append] at hkv ⊢
    rw [pairsLoop, if_neg fd.2.2.2.1, hkv]
    dsimp only
    rw [if_pos rfl, toNl_line hrem, toNl_line hy, toNl_nl hc, eatAll, if_neg (blank_ne (Or.inr hc)), if_pos (isSpace_blank (Or.inr hc)), ih n r hr (by omega)]
  | @last k v v' g kt b1 b2 x y heof hg hk h1 h2 hF hs hy =>
    intro n r hr hn
    obtain rfl : r = [] := by
      rcases hr with hr | ⟨h, -⟩
      · exact hr
      · rw [heof] at h; cases h
    obtain ⟨d, z, ht, hd⟩ := key_head hk
    have fd := keyHead_facts hd
    have he : eatAll (kt ++ (b1 ++ '=' :: (b2 ++ (x ++ y)))) = kt ++ (b1 ++ '=' :: (b2 ++ (x ++ y))) := by
      rw [ht, List.cons_append, eatAll_cons fd.2.2.2.2.1 fd.2.2.2.2.2.1]
    rw [List.append_nil, eatAll_gap hg, he] at hn ⊢
    simp only [List.length_append, List.length_cons] at hn
    obtain ⟨n, rfl⟩ : ∃ m, n = m + 2 := ⟨n - 2, by
      have : kt.length = z.length + 1 := by rw [ht]; rfl
      omega⟩
    obtain ⟨rem, hrem, hf⟩ := hf k v v' x b2 y hF h2 hs
    have hkv := keyVal_ok hk h1 hf
    have ey : toNl y = [] := by
      have := toNl_line hy []
      rw [List.append_nil] at this
      exact this
    rw [ht] at hkv ⊢
    rw [List.cons_append] at hkv ⊢
    rw [pairsLoop, if_neg fd.2.2.2.1, hkv]
    dsimp only
    rw [if_pos rfl, toNl_line hrem, ey, eatAll_nil, pairsLoop]

theorem inline_nl {c : Char} (h : ¬InlineStop c) : ¬NL c := fun h' => h (Or.inl h')

theorem rem_stop {t : Ty} {rem : List Char} {stop : Char → Prop} (hs : ∀ c, stop c → InlineStop c) (h : Rem t rem) : ∀ c ∈ rem, ¬stop c :=
  fun c hc h' => rem_inline h c hc (hs c h')

theorem parse_arr {fp : FP D} {t : Ty} (v : List (t.Val D)) {s r : List Char} (h : eatWs s = '[' :: r) :
    parse fp (.arr t) .normal v s = arrLoop (parse fp t .normal (dflt fp t)) ((eatAll r).length + 1) v (eatAll r) := by
  change parseArray _ _ _ _ _ = _
  rw [parseArray, if_neg fun h => h.1 rfl, if_neg (by decide), h]
  exact if_pos rfl

theorem many_tbl {V : Type} {f : State → Key → V → List Char → R (V × List Char)} (v : V) {s r : List Char} (h : eatWs s = '{' :: r) :
    parseMany f .normal v s = tblLoop (f .normal) ((eatAll r).length + 1) v (eatAll r) := by
  rw [parseMany.eq_def]
  dsimp only
  rw [h]
  exact if_pos rfl

theorem parse_tbl {fp : FP D} {fs : Fields} (v : fs.Val D) {s r : List Char} (h : eatWs s = '{' :: r) :
    parse fp (.obj fs) .normal v s = tblLoop (fun k v s => find fp fs .normal k v s) ((eatAll r).length + 1) v (eatAll r) :=
  many_tbl v h

mutual
theorem val_ok (fp : FP D) : ∀ (t : Ty) (old new : t.Val D) (x : List Char), ValText fp t old new x → ∀ (b r : List Char), Blanks b → Stops r →
    ∃ rem, Rem t rem ∧ parse fp t .normal old (b ++ (x ++ r)) = .ok (new, rem ++ r)
  | .str, old, new, x, h, b, r, hb, hr => by
    refine ⟨[], fun c hc => (List.not_mem_nil hc).elim, ?_⟩
    have hq : r.head? ≠ some '"' ∧ r.head? ≠ some '\'' := by
      constructor <;> intro h <;> rcases hr _ h with h | h | h | h | (h | h) | (h | h) <;> cases h
    change Except.ok (parseString true '\x00' '\x00' (b ++ (x ++ r))) = _
    rw [parseString_form _ _ (show StrForm new x from h) hb hq]
    rfl
  | .int, old, new, x, h, b, r, hb, hr => by
    refine ⟨[], fun c hc => (List.not_mem_nil hc).elim, ?_⟩
    change parseNumber getInt _ _ = _
    exact parseNumber_form (intForm_head (show Int64Form new x from h).1) hb (getInt_form h hb hr)
  | .dbl, old, new, x, h, b, r, hb, hr => by
    refine ⟨[], fun c hc => (List.not_mem_nil hc).elim, ?_⟩
    change parseNumber (getDbl fp) _ _ = _
    exact parseNumber_form (show fp.Reads new x from h).1 hb (getDbl_form h hb hr)
  | .bool, old, new, x, h, b, r, hb, hr => by
    obtain ⟨q, hq, e⟩ := parseBool_form (v := new) (r := r) hb
    refine ⟨q, hq, ?_⟩
    change Except.ok (parseBool (b ++ (x ++ r))) = _
    rw [show x = _ from h, e]
    rfl
  | .arr t, old, new, x, h, b, r, hb, hr => by
    obtain ⟨l, g, b', rfl, hg, rfl, hi⟩ := h
    have hh : ∀ y z, ValText fp t (dflt fp t) y z → ∃ c q, z = c :: q ∧ Head c := fun y z h => val_head h
    have hunf : parse fp (.arr t) .normal old (b ++ ('[' :: (g ++ b') ++ r)) =
        arrLoop (parse fp t .normal (dflt fp t)) ((eatAll (g ++ (b' ++ r))).length + 1) old (eatAll (g ++ (b' ++ r))) := by
      refine parse_arr (old : List (t.Val D)) ?_
      rw [eatWs_blanks hb, List.cons_append, eatWs_cons (by unfold Blank; decide), List.append_assoc]
    rw [hunf, eatAll_gap hg]
    cases ht : t.isArr
    · rw [ht] at hi
      have hi : Items _ l b' := hi
      obtain ⟨d, z, hb', hd1, hd2⟩ := items_head hh hi
      have he : eatAll (b' ++ r) = b' ++ r := by rw [hb', List.cons_append, eatAll_cons hd1 hd2]
      have key := items_ok (add := parse fp t .normal (dflt fp t)) hh (fun y z r hyz hr => by
        obtain ⟨rem, h1, h2⟩ := val_ok fp t (dflt fp t) y z hyz [] r (fun c hc => (List.not_mem_nil hc).elim) hr
        refine ⟨rem, ?_, h2⟩
        rw [Rem, ht] at h1
        exact h1) hi ((b' ++ r).length + 1) old r (Nat.lt_succ_self _)
      rw [he, key]
      exact ⟨[']'], ⟨[], rfl, fun c hc => (List.not_mem_nil hc).elim⟩, rfl⟩
    · rw [ht] at hi
      have hi : Nested _ l b' := hi
      have he : eatAll (b' ++ r) = b' ++ r := by
        cases hi with
        | nil => rw [List.singleton_append, eatAll_cons (by decide) (by decide)]
        | one hx =>
          obtain ⟨c, q, rfl, hc⟩ := hh _ _ hx
          rw [List.cons_append, List.cons_append, eatAll_cons (head_facts hc).2.1 (head_facts hc).1]
      obtain ⟨q, hq, key⟩ := nested_ok (add := parse fp t .normal (dflt fp t)) hh (fun y z r hyz hr => by
        obtain ⟨rem, h1, h2⟩ := val_ok fp t (dflt fp t) y z hyz [] r (fun c hc => (List.not_mem_nil hc).elim) hr
        rw [Rem, ht] at h1
        obtain ⟨q, rfl, hq⟩ := h1
        exact ⟨q, hq, h2⟩) hi ((b' ++ r).length + 1) old r (Nat.lt_succ_self _)
      rw [he, key]
      exact ⟨']' :: q, ⟨q, rfl, hq⟩, rfl⟩
  | .obj fs, old, new, x, h, b, r, hb, hr => by
    obtain ⟨g, b', hg, rfl, hP⟩ := h
    refine ⟨[], fun c hc => (List.not_mem_nil hc).elim, ?_⟩
    obtain ⟨d, z, hb', -, hd1, hd2⟩ := pairs_head hP
    have he : eatAll (b' ++ r) = b' ++ r := by rw [hb', List.cons_append, eatAll_cons hd1 hd2]
    refine (parse_tbl (r := g ++ (b' ++ r)) old (by rw [eatWs_blanks hb, List.cons_append, eatWs_cons (by unfold Blank; decide), List.append_assoc])).trans ?_
    rw [eatAll_gap hg, he]
    exact pairs_ok (field_ok fp fs InlineStop fun _ h => h) hP _ _ (Nat.lt_succ_self _)

theorem field_ok (fp : FP D) : ∀ (fs : Fields) (stop : Char → Prop), (∀ c, stop c → InlineStop c) →
    FieldOk stop (fun k v s => find fp fs .normal k v s) (fun k v v' z => FieldText fp fs stop k v v' z)
  | .nil, stop, hs => by
    intro k v v' x b r h hb hr
    obtain ⟨rfl, hx⟩ := h
    refine ⟨b ++ x, fun c hc => ?_, by rw [List.append_assoc]; rfl⟩
    rcases List.mem_append.1 hc with hc | hc
    · exact fun h => blank_inline (hb c hc) (hs c h)
    · exact hx c hc
  | .cons k t fs, stop, hs => by
    intro key v v' x b r h hb hr
    rcases h with ⟨rfl, h1, h2⟩ | ⟨hne, h1, h2⟩
    · obtain ⟨rem, hrem, e⟩ := val_ok fp t _ _ x h1 b r hb hr
      refine ⟨rem, rem_stop hs hrem, ?_⟩
      change find fp (.cons key t fs) .normal key v (b ++ (x ++ r)) = _
      rw [find, if_pos rfl, e]
      dsimp only
      rw [← h2]
      rfl
    · obtain ⟨rem, hrem, e⟩ := field_ok fp fs stop hs key _ _ x b r h2 hb hr
      refine ⟨rem, hrem, ?_⟩
      change find fp fs .normal key v.2 (b ++ (x ++ r)) = _ at e
      change find fp (.cons k t fs) .normal key v (b ++ (x ++ r)) = _
      rw [find, if_neg hne, e]
      dsimp only
      rw [← h1]
      rfl
end

end Verif.Toml
