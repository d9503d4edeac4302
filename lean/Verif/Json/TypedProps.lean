import Verif.Json.Typed

/-!
# JSON into typed objects: theorems (C188 to C190)
-/

namespace Verif.JsonTyped

open Verif.Json

/-! ## Specification -/

/-- A value in which no comma and no bracket occurs, for a member that the object does not have or an element for which there is no room. -/
def Simple (t : List Char) : Prop := (∃ c q, t = c :: q ∧ isSpace c = false) ∧ ',' ∉ t ∧ '}' ∉ t ∧ ']' ∉ t

mutual
/-- The text is a JSON value for an object of the type of `a`, and stored into `a` gives `b`. Vectors keep the elements they have, arrays and structures the elements and members for which the text has
no value. -/
inductive Den : T → List Char → T → Prop where
  | tru {b : Bool} : Den (.bool b) "true".toList (.bool true)
  | fls {b : Bool} : Den (.bool b) "false".toList (.bool false)
  /-- a number for a flag: whether it differs from zero -/
  | num {b : Bool} {t : List Char} : Digits t → decVal t < 2 ^ 64 → Den (.bool b) t (.bool (decVal t != 0))
  | int {lo hi x i : Int} {t : List Char} : IntText i t → lo ≤ i → i ≤ hi → Den (.int lo hi x) t (.int lo hi i)
  /-- not JSON: a character stands for itself -/
  | chr {x c : Char} : isSpace c = false → isStop c = false → c ≠ '"' → Den (.chr x) [c] (.chr c)
  | str {x s t : List Char} : StrText false s t → Den (.str x) ('"' :: (t ++ ['"'])) (.str s)
  | vec0 {d : T} {l : List T} {w : List Char} : AllWs w → Den (.vec d l) ('[' :: (w ++ [']'])) (.vec d l)
  | vec {d : T} {l xs : List T} {t : List Char} : DenV d t xs → Den (.vec d l) ('[' :: (t ++ [']'])) (.vec d (l ++ xs))
  | fix0 {l : List T} {w : List Char} : AllWs w → Den (.fix l) ('[' :: (w ++ [']'])) (.fix l)
  | fix {l l' : List T} {t : List Char} : DenF l t l' → Den (.fix l) ('[' :: (t ++ [']'])) (.fix l')
  | obj0 {l : List (List Char × T)} {w : List Char} : AllWs w → Den (.obj l) ('{' :: (w ++ ['}'])) (.obj l)
  | obj {l l' : List (List Char × T)} {t : List Char} : DenO l t l' → Den (.obj l) ('{' :: (t ++ ['}'])) (.obj l')

/-- The elements of an array, each for a new element of a vector. -/
inductive DenV : T → List Char → List T → Prop where
  | one {d x : T} {w1 t w2 : List Char} : AllWs w1 → Den d t x → AllWs w2 → DenV d (w1 ++ (t ++ w2)) [x]
  | cons {d x : T} {xs : List T} {w1 t w2 u : List Char} : AllWs w1 → Den d t x → AllWs w2 → DenV d u xs → DenV d (w1 ++ (t ++ (w2 ++ ',' :: u))) (x :: xs)

/-- The elements of an array, one after the other for the elements of an array or a tuple. -/
inductive DenF : List T → List Char → List T → Prop where
  | one {a b : T} {l : List T} {w1 t w2 : List Char} : AllWs w1 → Den a t b → AllWs w2 → DenF (a :: l) (w1 ++ (t ++ w2)) (b :: l)
  | cons {a b : T} {l l' : List T} {w1 t w2 u : List Char} : AllWs w1 → Den a t b → AllWs w2 → DenF l u l' → DenF (a :: l) (w1 ++ (t ++ (w2 ++ ',' :: u))) (b :: l')
  | extra1 {w1 t : List Char} : AllWs w1 → Simple t → DenF [] (w1 ++ t) []
  | extra {w1 t u : List Char} : AllWs w1 → Simple t → DenF [] u [] → DenF [] (w1 ++ (t ++ ',' :: u)) []

/-- The members of an object, in any order. -/
inductive DenO : List (List Char × T) → List Char → List (List Char × T) → Prop where
  | one {l l' : List (List Char × T)} {k kt w0 w1 w2 t w3 : List Char} : AllWs w0 → StrText false k kt → '\x00' ∉ k → AllWs w1 → AllWs w2 → DenM l k t l' → AllWs w3 →
      DenO l (w0 ++ '"' :: (kt ++ '"' :: (w1 ++ ':' :: (w2 ++ (t ++ w3))))) l'
  | cons {l l' l'' : List (List Char × T)} {k kt w0 w1 w2 t w3 u : List Char} : AllWs w0 → StrText false k kt → '\x00' ∉ k → AllWs w1 → AllWs w2 → DenM l k t l' → AllWs w3 → DenO l' u l'' →
      DenO l (w0 ++ '"' :: (kt ++ '"' :: (w1 ++ ':' :: (w2 ++ (t ++ (w3 ++ ',' :: u)))))) l''

/-- One member: stored into the member of that name, ignored if there is none. -/
inductive DenM : List (List Char × T) → List Char → List Char → List (List Char × T) → Prop where
  | known {pre post : List (List Char × T)} {k t : List Char} {a b : T} : k ∉ pre.map (·.1) → Den a t b → DenM (pre ++ (k, a) :: post) k t (pre ++ (k, b) :: post)
  | unknown {l : List (List Char × T)} {k t : List Char} : k ∉ l.map (·.1) → Simple t → DenM l k t l
end

/-! ## Parsing ends -/

theorem splitSign_suffix (s : List Char) : (splitSign s).2 <:+ s := by
  cases s with
  | nil => exact List.suffix_refl _
  | cons c r =>
    rw [splitSign]
    split
    · exact List.suffix_cons ..
    · split
      · exact List.suffix_cons ..
      · exact List.suffix_refl _

theorem scanInt_suffix (lo hi x : Int) (s : List Char) : (scanInt lo hi x s).2 <:+ s := by
  have h := ((List.dropWhile_suffix isDigit).trans (splitSign_suffix (s.dropWhile isSpace))).trans (List.dropWhile_suffix isSpace)
  simp only [scanInt]
  repeat' split
  all_goals first | exact List.nil_suffix | exact h

theorem boolWord_suffix (v s : List Char) : (boolWord v s).2 <:+ s := by
  induction v generalizing s with
  | nil => rw [boolWord]; exact List.suffix_refl _
  | cons a v ih =>
    cases s with
    | nil => exact List.suffix_refl _
    | cons c s =>
      rw [boolWord]
      split
      · exact List.suffix_refl _
      · split
        · exact (ih s).trans (List.suffix_cons ..)
        · exact List.suffix_cons ..

theorem parseBool_suffix (s : List Char) : (parseBool s).2 <:+ s := by
  cases s with
  | nil => exact List.suffix_refl _
  | cons c s =>
    rw [parseBool]
    split
    · exact scanInt_suffix ..
    · exact boolWord_suffix ..

theorem eatQuoted_suffix (s : List Char) : eatQuoted s <:+ s := (List.drop_suffix ..).trans (List.dropWhile_suffix _)

theorem parseInt_suffix (lo hi i : Int) (s : List Char) : (parseInt lo hi i s).2 <:+ s := by
  cases s with
  | nil => exact List.suffix_refl _
  | cons c s =>
    rw [parseInt]
    split
    · exact List.suffix_refl _
    · split
      · exact ((eatQuoted_suffix _).trans (scanInt_suffix ..)).trans (List.suffix_cons ..)
      · exact scanInt_suffix ..

theorem scanChar_suffix (x : Char) (s : List Char) : (scanChar x s).2 <:+ s := by
  have h := List.dropWhile_suffix (l := s) isSpace
  rw [scanChar]
  split
  · exact List.nil_suffix
  · rename_i c r e
    rw [e] at h
    exact (List.suffix_cons c r).trans h

theorem parseChar_suffix (x : Char) (s : List Char) : (parseChar x s).2 <:+ s := by
  cases s with
  | nil => exact List.suffix_refl _
  | cons c s =>
    rw [parseChar]
    split
    · exact List.suffix_refl _
    · split
      · exact ((eatQuoted_suffix _).trans (scanChar_suffix ..)).trans (List.suffix_cons ..)
      · exact scanChar_suffix ..

theorem eatChar_suffix (s : List Char) : (eatChar s).2 <:+ s := by
  simp only [eatChar]
  have h1 := List.drop_suffix 1 s
  split
  · exact h1
  · split
    · exact List.nil_suffix
    · rename_i e r h
      rw [h] at h1
      have h2 := (List.suffix_cons e r).trans h1
      repeat' split
      all_goals first | exact h2 | exact (List.drop_suffix ..).trans h2

theorem readStr_suffix : ∀ (s : List Char), (readStr s).2 <:+ s
  | [] => by rw [readStr]; exact List.suffix_refl _
  | c :: s => by
    rw [readStr]
    split
    · exact List.suffix_refl _
    · exact (readStr_suffix (eatChar (c :: s)).2).trans (eatChar_suffix _)
termination_by s => s.length
decreasing_by
  have := eatChar_length c s
  simp only [List.length_cons]
  omega

theorem parseStr_suffix (s : List Char) : (parseStr s).2 <:+ s := by
  cases s with
  | nil => exact List.suffix_refl _
  | cons c s =>
    rw [parseStr]
    split
    · exact List.suffix_refl _
    · split
      · exact (List.dropWhile_suffix _).trans (List.suffix_cons ..)
      · exact ((List.drop_suffix ..).trans (readStr_suffix s)).trans (List.suffix_cons ..)

theorem eatComma_suffix (s : List Char) : eatComma s <:+ s := by
  cases s with
  | nil => exact List.suffix_refl _
  | cons c s =>
    rw [eatComma]
    split
    · exact List.suffix_cons ..
    · exact List.suffix_refl _

/-- What follows a value. -/
theorem skip_suffix (p : Char → Bool) (s : List Char) : eatWs (eatComma (s.dropWhile p)) <:+ s :=
  ((List.dropWhile_suffix _).trans (eatComma_suffix _)).trans (List.dropWhile_suffix _)

/-- Between two elements of an array at least one character is read, even if the element reads none. -/
theorem skip_less {c : Char} {s r : List Char} (hc : c ≠ ']') (h : r <:+ c :: s) :
    (eatWs (eatComma (r.dropWhile fun c => c != ',' && c != ']'))).length < (c :: s).length := by
  rcases List.suffix_cons_iff.1 h with rfl | h
  · by_cases hk : c = ','
    · subst hk
      have e : (',' :: s).dropWhile (fun c => c != ',' && c != ']') = ',' :: s := rfl
      rw [e, eatComma, if_pos rfl]
      have := eatWs_length s
      rw [List.length_cons]; omega
    · have e : (c :: s).dropWhile (fun c => c != ',' && c != ']') = s.dropWhile (fun c => c != ',' && c != ']') := by
        rw [List.dropWhile_cons, if_pos (by simp [hk, hc])]
      rw [e]
      have := (skip_suffix (fun c => c != ',' && c != ']') s).length_le
      rw [List.length_cons]; omega
  · have := (skip_suffix (fun c => c != ',' && c != ']') r).length_le
    have := h.length_le
    rw [List.length_cons]; omega

mutual
theorem parseT_ends : ∀ (n : Nat) (a : T) (s : List Char), 2 * s.length + 1 ≤ n → ∃ b r, parseT n a s = some (b, r) ∧ r <:+ s
  | 0, a, s, h => by omega
  | n + 1, .bool _, s, h => ⟨_, _, by rw [parseT], parseBool_suffix s⟩
  | n + 1, .int lo hi i, s, h => ⟨_, _, by rw [parseT], parseInt_suffix ..⟩
  | n + 1, .chr c, s, h => ⟨_, _, by rw [parseT], parseChar_suffix ..⟩
  | n + 1, .str _, s, h => ⟨_, _, by rw [parseT], parseStr_suffix ..⟩
  | n + 1, .vec d l, s, h => by
    rw [parseT]
    have hl : eatWs s <:+ s := List.dropWhile_suffix _
    split
    · exact ⟨_, _, rfl, List.nil_suffix⟩
    · rename_i c s' e
      rw [e] at hl
      have h1 := hl.length_le
      have h2 := eatWs_length s'
      rw [List.length_cons] at h1
      have h3 := (List.suffix_cons c s').trans hl
      split
      · exact ⟨_, _, rfl, h3⟩
      · obtain ⟨b, r, e2, h4⟩ := vecL_ends n d l (eatWs s') (by omega)
        exact ⟨_, _, by rw [e2]; rfl, (h4.trans (List.dropWhile_suffix _)).trans h3⟩
  | n + 1, .fix l, s, h => by
    rw [parseT]
    have hl : eatWs s <:+ s := List.dropWhile_suffix _
    split
    · exact ⟨_, _, rfl, List.nil_suffix⟩
    · rename_i c s' e
      rw [e] at hl
      have h1 := hl.length_le
      have h2 := eatWs_length s'
      rw [List.length_cons] at h1
      have h3 := (List.suffix_cons c s').trans hl
      split
      · exact ⟨_, _, rfl, h3⟩
      · obtain ⟨b, r, e2, h4⟩ := fixL_ends n l (eatWs s') (by omega)
        exact ⟨_, _, by rw [e2]; rfl, (h4.trans (List.dropWhile_suffix _)).trans h3⟩
  | n + 1, .obj l, s, h => by
    rw [parseT]
    have hl : eatWs s <:+ s := List.dropWhile_suffix _
    split
    · exact ⟨_, _, rfl, List.nil_suffix⟩
    · rename_i c s' e
      rw [e] at hl
      have h1 := hl.length_le
      have h2 := eatWs_length s'
      rw [List.length_cons] at h1
      have h3 := (List.suffix_cons c s').trans hl
      split
      · exact ⟨_, _, rfl, h3⟩
      · obtain ⟨b, r, e2, h4⟩ := objL_ends n l (eatWs s') (by omega)
        exact ⟨_, _, by rw [e2]; rfl, (h4.trans (List.dropWhile_suffix _)).trans h3⟩

theorem vecL_ends : ∀ (n : Nat) (d : T) (l : List T) (s : List Char), 2 * s.length + 2 ≤ n → ∃ b r, vecL n d l s = some (b, r) ∧ r <:+ s
  | 0, d, l, s, h => by omega
  | n + 1, d, l, [], h => ⟨_, _, by rw [vecL], List.suffix_refl _⟩
  | n + 1, d, l, c :: s, h => by
    rw [vecL]
    split
    · exact ⟨_, _, rfl, List.suffix_cons ..⟩
    · rename_i hc
      obtain ⟨v, r, e, h1⟩ := parseT_ends n d (c :: s) (by omega)
      rw [e]
      dsimp only
      have h2 := skip_less hc h1
      obtain ⟨b, q, e2, h3⟩ := vecL_ends n d (l ++ [v]) _ (show 2 * (eatWs (eatComma (r.dropWhile fun c => c != ',' && c != ']'))).length + 2 ≤ n by omega)
      exact ⟨b, q, e2, (h3.trans (skip_suffix _ _)).trans h1⟩

theorem fixL_ends : ∀ (n : Nat) (l : List T) (s : List Char), 2 * s.length + 2 ≤ n → ∃ b r, fixL n l s = some (b, r) ∧ r <:+ s
  | 0, l, s, h => by omega
  | n + 1, l, [], h => ⟨_, _, by rw [fixL], List.suffix_refl _⟩
  | n + 1, [], c :: s, h => by
    rw [fixL]
    split
    · exact ⟨_, _, rfl, List.suffix_cons ..⟩
    · rename_i hc
      have h2 := skip_less hc (List.suffix_refl (c :: s))
      obtain ⟨b, q, e2, h3⟩ := fixL_ends n [] _ (show 2 * (eatWs (eatComma ((c :: s).dropWhile fun c => c != ',' && c != ']'))).length + 2 ≤ n by omega)
      exact ⟨b, q, e2, h3.trans (skip_suffix _ _)⟩
  | n + 1, a :: l, c :: s, h => by
    rw [fixL]
    split
    · exact ⟨_, _, rfl, List.suffix_cons ..⟩
    · rename_i hc
      obtain ⟨v, r, e, h1⟩ := parseT_ends n a (c :: s) (by omega)
      rw [e]
      dsimp only
      have h2 := skip_less hc h1
      obtain ⟨b, q, e2, h3⟩ := fixL_ends n l _ (show 2 * (eatWs (eatComma (r.dropWhile fun c => c != ',' && c != ']'))).length + 2 ≤ n by omega)
      rw [e2]
      exact ⟨_, _, rfl, (h3.trans (skip_suffix _ _)).trans h1⟩

theorem objL_ends : ∀ (n : Nat) (l : List (List Char × T)) (s : List Char), 2 * s.length + 2 ≤ n → ∃ b r, objL n l s = some (b, r) ∧ r <:+ s
  | 0, l, s, h => by omega
  | n + 1, l, [], h => ⟨_, _, by rw [objL], List.suffix_refl _⟩
  | n + 1, l, c :: s, h => by
    rw [objL]
    rw [List.length_cons] at h
    split
    · exact ⟨_, _, rfl, List.suffix_cons ..⟩
    · split
      · obtain ⟨b, r, e, h1⟩ := objL_ends n l s (by omega)
        exact ⟨b, r, e, h1.trans (List.suffix_cons ..)⟩
      · dsimp only
        have h1 : eatWs ((readStr s).2.drop 1) <:+ s := ((List.dropWhile_suffix _).trans (List.drop_suffix ..)).trans (readStr_suffix s)
        split
        · obtain ⟨b, r, e, h2⟩ := objL_ends n l [] (by simp only [List.length_nil]; omega)
          exact ⟨b, r, e, h2.trans List.nil_suffix⟩
        · rename_i c' s' e'
          rw [e'] at h1
          have h2 := (List.suffix_cons c' s').trans h1
          have h3 := h1.length_le
          rw [List.length_cons] at h3
          have h4 : eatWs s' <:+ s' := List.dropWhile_suffix _
          split
          · obtain ⟨b, r, e, h5⟩ := objL_ends n l s' (by omega)
            exact ⟨b, r, e, (h5.trans h2).trans (List.suffix_cons ..)⟩
          · split
            · have h6 := (skip_suffix (fun c => c != ',' && c != '}') (eatWs s')).trans h4
              have h7 := h6.length_le
              obtain ⟨b, q, e2, h8⟩ := objL_ends n l _ (show 2 * (eatWs (eatComma ((eatWs s').dropWhile fun c => c != ',' && c != '}'))).length + 2 ≤ n by omega)
              exact ⟨b, q, e2, ((h8.trans h6).trans h2).trans (List.suffix_cons ..)⟩
            · rename_i a ea
              have h5 := h4.length_le
              obtain ⟨v, r, e, h6⟩ := parseT_ends n a (eatWs s') (by omega)
              rw [e]
              dsimp only
              have h7 := ((skip_suffix (fun c => c != ',' && c != '}') r).trans h6).trans h4
              have h8 := h7.length_le
              obtain ⟨b, q, e2, h9⟩ := objL_ends n (replace (cstr (readStr s).1) v l) _ (show 2 * (eatWs (eatComma (r.dropWhile fun c => c != ',' && c != '}'))).length + 2 ≤ n by omega)
              exact ⟨b, q, e2, ((h9.trans h7).trans h2).trans (List.suffix_cons ..)⟩
end

/-! ## Parsing the texts of the grammar -/

theorem den_head {a b : T} {t : List Char} (h : Den a t b) : ∃ c q, t = c :: q ∧ isSpace c = false ∧ isStop c = false := by
  cases h with
  | tru => exact ⟨_, _, rfl, by decide⟩
  | fls => exact ⟨_, _, rfl, by decide⟩
  | num hd =>
    rcases t with _ | ⟨c, q⟩
    · exact absurd rfl hd.1
    · have := digit_facts (hd.2.1 c (List.mem_cons_self ..))
      exact ⟨c, q, rfl, this.2.2.1, this.2.1⟩
  | int h =>
    cases h with
    | pos hd =>
      rcases t with _ | ⟨c, q⟩
      · exact absurd rfl hd.1
      · have := digit_facts (hd.2.1 c (List.mem_cons_self ..))
        exact ⟨c, q, rfl, this.2.2.1, this.2.1⟩
    | neg hd => exact ⟨_, _, rfl, by decide⟩
  | chr h1 h2 _ => exact ⟨_, _, rfl, h1, h2⟩
  | str h => exact ⟨_, _, rfl, by decide⟩
  | vec0 => exact ⟨_, _, rfl, by decide⟩
  | vec => exact ⟨_, _, rfl, by decide⟩
  | fix0 => exact ⟨_, _, rfl, by decide⟩
  | fix => exact ⟨_, _, rfl, by decide⟩
  | obj0 => exact ⟨_, _, rfl, by decide⟩
  | obj => exact ⟨_, _, rfl, by decide⟩

theorem not_stop_ne {c : Char} (h : isStop c = false) : c ≠ ',' ∧ c ≠ '}' ∧ c ≠ ']' := by
  refine ⟨?_, ?_, ?_⟩ <;> rintro rfl <;> exact absurd h (by decide)

theorem not_stop_skip {x : List Char} (h : ∀ c ∈ x, isStop c = false) : (∀ c ∈ x, (c != ',' && c != ']') = true) ∧ ∀ c ∈ x, (c != ',' && c != '}') = true := by
  constructor <;> intro c hc <;> have := not_stop_ne (h c hc) <;> simp [this.1, this.2.1, this.2.2]

theorem ws_not_stop {w : List Char} (h : AllWs w) : ∀ c ∈ w, isStop c = false := fun _ hc => (h.stop hc).1

/-- No digit follows. -/
def NoDigit (r : List Char) : Prop := ∀ c q, r = c :: q → isDigit c = false

theorem noDigit {w r : List Char} (hw : AllWs w) (hr : Stops r) : NoDigit (w ++ r) := by
  intro c q e
  cases w with
  | nil =>
    rcases hr with rfl | ⟨d, x, rfl, hd⟩
    · cases e
    · obtain ⟨rfl, -⟩ := List.cons.inj e
      simp only [isStop, Bool.or_eq_true, beq_iff_eq] at hd
      rcases hd with (rfl | rfl) | rfl <;> rfl
  | cons a w =>
    obtain ⟨rfl, -⟩ := List.cons.inj e
    exact (hw.stop (List.mem_cons_self ..)).2.2.2

theorem takeDigits {ds r : List Char} (hd : ∀ c ∈ ds, '0' ≤ c ∧ c ≤ '9') (hr : NoDigit r) : (ds ++ r).takeWhile isDigit = ds ∧ (ds ++ r).dropWhile isDigit = r := by
  induction ds with
  | nil =>
    cases r with
    | nil => exact ⟨rfl, rfl⟩
    | cons c q => simp [hr c q rfl]
  | cons a ds ih =>
    obtain ⟨h1, h2⟩ := ih fun c hc => hd c (List.mem_cons_of_mem _ hc)
    have ha := (digit_facts (hd a (List.mem_cons_self ..))).1
    simp [ha, h1, h2]

theorem scanInt_text {lo hi x i : Int} {t r : List Char} (h : IntText i t) (h1 : lo ≤ i) (h2 : i ≤ hi) (hr : NoDigit r) : scanInt lo hi x (t ++ r) = (i, r) := by
  cases h with
  | pos hd =>
    obtain ⟨hne, hdig, -⟩ := hd
    have e := decNum_foldl t hdig nil_ws 0
    rw [List.append_nil] at e
    obtain ⟨e3, e4⟩ := takeDigits hdig hr
    rcases hds : t with _ | ⟨c, ds'⟩
    · exact absurd hds hne
    · have f := digit_facts (hdig c (by rw [hds]; exact List.mem_cons_self ..))
      rw [hds] at e h1 h2 e3 e4
      have e1 : (c :: ds' ++ r).dropWhile isSpace = c :: ds' ++ r := by
        rw [List.cons_append, List.dropWhile_cons, if_neg (by simp [f.2.2.1])]
      have e2 : splitSign (c :: ds' ++ r) = (false, c :: ds' ++ r) := by
        rw [List.cons_append, splitSign, if_neg f.2.2.2.2.2.2.2.2.1, if_neg f.2.2.2.2.2.2.2.2.2.1]
      have e5 : decNum 0 (c :: ds') = decVal (c :: ds') := e
      simp only [scanInt, e1, e2, e3, e4, e5, Bool.false_eq_true, if_false]
      rw [if_neg (by simp), if_neg (by simp), if_neg (by omega), if_neg (by omega)]
  | @neg ds hd =>
    obtain ⟨hne, hdig, -⟩ := hd
    have e := decNum_foldl ds hdig nil_ws 0
    rw [List.append_nil] at e
    obtain ⟨e3, e4⟩ := takeDigits hdig hr
    have e1 : ('-' :: ds ++ r).dropWhile isSpace = '-' :: (ds ++ r) := rfl
    have e2 : splitSign ('-' :: (ds ++ r)) = (true, ds ++ r) := rfl
    have e5 : decNum 0 ds = decVal ds := e
    simp only [scanInt, e1, e2, e3, e4, e5, if_true]
    rw [if_neg (by simp), if_neg hne, if_neg (by omega), if_neg (by omega)]

theorem lookup_known {k : List Char} {a : T} {pre post : List (List Char × T)} (h : k ∉ pre.map (·.1)) : lookup k (pre ++ (k, a) :: post) = some a := by
  induction pre with
  | nil => rw [List.nil_append, lookup, if_pos rfl]
  | cons x pre ih =>
    obtain ⟨j, y⟩ := x
    rw [List.map_cons, List.mem_cons, not_or] at h
    rw [List.cons_append, lookup, if_neg (Ne.symm h.1), ih h.2]

theorem replace_known {k : List Char} {a b : T} {pre post : List (List Char × T)} (h : k ∉ pre.map (·.1)) : replace k b (pre ++ (k, a) :: post) = pre ++ (k, b) :: post := by
  induction pre with
  | nil => rw [List.nil_append, replace, if_pos rfl, List.nil_append]
  | cons x pre ih =>
    obtain ⟨j, y⟩ := x
    rw [List.map_cons, List.mem_cons, not_or] at h
    rw [List.cons_append, replace, if_neg (Ne.symm h.1), ih h.2, List.cons_append]

theorem lookup_unknown {k : List Char} {l : List (List Char × T)} (h : k ∉ l.map (·.1)) : lookup k l = none := by
  induction l with
  | nil => rfl
  | cons x l ih =>
    obtain ⟨j, y⟩ := x
    rw [List.map_cons, List.mem_cons, not_or] at h
    rw [lookup, if_neg (Ne.symm h.1), ih h.2]

theorem simple_not_stop {t : List Char} (h : Simple t) : ∀ c ∈ t, isStop c = false := by
  intro c hc
  simp only [isStop, Bool.or_eq_false_iff, beq_eq_false_iff_ne]
  refine ⟨⟨?_, ?_⟩, ?_⟩ <;> rintro rfl
  · exact h.2.1 hc
  · exact h.2.2.1 hc
  · exact h.2.2.2 hc

/-- The skipping to the next element or the end of the array, after the value. -/
theorem skip_arr {x r : List Char} (hx : ∀ c ∈ x, isStop c = false) : eatWs (eatComma ((x ++ ']' :: r).dropWhile fun c => c != ',' && c != ']')) = ']' :: r := by
  rw [skip_to (not_stop_skip hx).1 ⟨']', r, rfl, by decide⟩ (.inl rfl), eatComma, if_neg (by decide), eatWs_cons (by decide)]

theorem skip_arr_comma {x r : List Char} (hx : ∀ c ∈ x, isStop c = false) : eatWs (eatComma ((x ++ ',' :: r).dropWhile fun c => c != ',' && c != ']')) = eatWs r := by
  rw [skip_to (not_stop_skip hx).1 ⟨',', r, rfl, by decide⟩ (.inl rfl), eatComma, if_pos rfl]

theorem skip_obj {x r : List Char} (hx : ∀ c ∈ x, isStop c = false) : eatWs (eatComma ((x ++ '}' :: r).dropWhile fun c => c != ',' && c != '}')) = '}' :: r := by
  rw [skip_to (not_stop_skip hx).2 ⟨'}', r, rfl, by decide⟩ (.inl rfl), eatComma, if_neg (by decide), eatWs_cons (by decide)]

theorem skip_obj_comma {x r : List Char} (hx : ∀ c ∈ x, isStop c = false) : eatWs (eatComma ((x ++ ',' :: r).dropWhile fun c => c != ',' && c != '}')) = eatWs r := by
  rw [skip_to (not_stop_skip hx).2 ⟨',', r, rfl, by decide⟩ (.inl rfl), eatComma, if_pos rfl]

mutual
theorem den_ok : ∀ {a b : T} {t : List Char}, Den a t b → ∀ (n : Nat) (w r : List Char) (p : T × List Char), AllWs w → Stops r → parseT n a (t ++ (w ++ r)) = some p →
    p.1 = b ∧ ∃ x, p.2 = x ++ r ∧ ∀ c ∈ x, isStop c = false
  | _, _, _, _, 0, w, r, p, hw, hr, h => by simp [parseT] at h
  | _, _, _, .tru, n + 1, w, r, p, hw, hr, h => by
    rw [parseT] at h
    rw [← Option.some.inj h]
    refine ⟨?_, w, ?_, ws_not_stop hw⟩ <;> rfl
  | _, _, _, .fls, n + 1, w, r, p, hw, hr, h => by
    rw [parseT] at h
    rw [← Option.some.inj h]
    refine ⟨rfl, 'a' :: 'l' :: 's' :: 'e' :: w, rfl, ?_⟩
    intro c hc
    simp only [List.mem_cons] at hc
    rcases hc with rfl | rfl | rfl | rfl | hc
    all_goals first | decide | exact ws_not_stop hw c hc
  | _, _, _, .num (b := b) (t := t) hd hlt, n + 1, w, r, p, hw, hr, h => by
    obtain ⟨c, q, e, hs, hst⟩ := den_head (.num (b := b) hd hlt)
    have hc : isDigit c = true := (digit_facts (hd.2.1 c (by rw [e]; exact List.mem_cons_self ..))).1
    have e2 : parseBool (t ++ (w ++ r)) = (decVal t != 0, w ++ r) := by
      have := scanInt_text (lo := 0) (hi := 2 ^ 64 - 1) (x := 0) (.pos hd) (by omega) (by omega) (noDigit hw hr)
      have e3 : (((decVal t : Nat) : Int) != 0) = (decVal t != 0) := by
        rw [Bool.eq_iff_iff]; simp
      rw [← e3]
      rw [e] at this ⊢
      rw [List.cons_append, parseBool, if_pos hc, ← List.cons_append, this]
    rw [parseT, e2] at h
    rw [← Option.some.inj h]
    exact ⟨rfl, w, rfl, ws_not_stop hw⟩
  | _, _, _, .int (lo := lo) (hi := hi) (x := x) (i := i) (t := t) ht h1 h2, n + 1, w, r, p, hw, hr, h => by
    obtain ⟨c, q, e, hs, hst⟩ := den_head (.int (x := x) ht h1 h2)
    have hq : c ≠ '"' := by
      cases ht with
      | pos hd => exact (digit_facts (hd.2.1 c (by rw [e]; exact List.mem_cons_self ..))).2.2.2.2.2.1
      | neg hd => obtain ⟨rfl, -⟩ := List.cons.inj e; decide
    have e2 : parseInt lo hi x (t ++ (w ++ r)) = (i, w ++ r) := by
      have := scanInt_text (x := x) ht h1 h2 (noDigit hw hr)
      rw [e] at this ⊢
      rw [List.cons_append, parseInt, if_neg (by simp [hst]), if_neg hq, ← List.cons_append, this]
    rw [parseT, e2] at h
    rw [← Option.some.inj h]
    exact ⟨rfl, w, rfl, ws_not_stop hw⟩
  | _, _, _, .chr (x := x) (c := c) h1 h2 h3, n + 1, w, r, p, hw, hr, h => by
    have e2 : parseChar x ([c] ++ (w ++ r)) = (c, w ++ r) := by
      rw [List.singleton_append, parseChar, if_neg (by simp [h2]), if_neg h3, scanChar, List.dropWhile_cons, if_neg (by simp [h1])]
    rw [parseT, e2] at h
    rw [← Option.some.inj h]
    exact ⟨rfl, w, rfl, ws_not_stop hw⟩
  | _, _, _, .str (x := x) (s := s) (t := t) hs, n + 1, w, r, p, hw, hr, h => by
    rw [List.cons_append, parseT, List.append_assoc, List.singleton_append, parseStr, if_neg (by decide), if_neg (by decide), readStr_text hs] at h
    rw [← Option.some.inj h]
    exact ⟨rfl, w, rfl, ws_not_stop hw⟩
  | _, _, _, .vec0 (d := d) (l := l) (w := w') hw', n + 1, w, r, p, hw, hr, h => by
    rw [List.cons_append, parseT, eatWs_cons (by decide)] at h
    dsimp only at h
    rw [if_neg (by decide), List.append_assoc, eatWs_append hw', List.singleton_append, eatWs_cons (by decide)] at h
    cases n with
    | zero => simp [vecL] at h
    | succ n =>
      rw [vecL, if_pos rfl] at h
      rw [← Option.some.inj h]
      exact ⟨rfl, w, rfl, ws_not_stop hw⟩
  | _, _, _, .vec (d := d) (l := l) (xs := xs) (t := t) hi, n + 1, w, r, p, hw, hr, h => by
    rw [List.cons_append, parseT, eatWs_cons (by decide)] at h
    dsimp only at h
    rw [if_neg (by decide), List.append_assoc, List.singleton_append] at h
    rcases e : vecL n d l (eatWs (t ++ ']' :: (w ++ r))) with _ | q
    · rw [e] at h; cases h
    · have := denV_ok hi n l (w ++ r) q e
      rw [e] at h
      rw [← Option.some.inj h, this]
      exact ⟨rfl, w, rfl, ws_not_stop hw⟩
  | _, _, _, .fix0 (l := l) (w := w') hw', n + 1, w, r, p, hw, hr, h => by
    rw [List.cons_append, parseT, eatWs_cons (by decide)] at h
    dsimp only at h
    rw [if_neg (by decide), List.append_assoc, eatWs_append hw', List.singleton_append, eatWs_cons (by decide)] at h
    cases n with
    | zero => simp [fixL] at h
    | succ n =>
      have e : fixL (n + 1) l (']' :: (w ++ r)) = some (l, w ++ r) := by
        cases l <;> rw [fixL, if_pos rfl]
      rw [e] at h
      rw [← Option.some.inj h]
      exact ⟨rfl, w, rfl, ws_not_stop hw⟩
  | _, _, _, .fix (l := l) (l' := l') (t := t) hi, n + 1, w, r, p, hw, hr, h => by
    rw [List.cons_append, parseT, eatWs_cons (by decide)] at h
    dsimp only at h
    rw [if_neg (by decide), List.append_assoc, List.singleton_append] at h
    rcases e : fixL n l (eatWs (t ++ ']' :: (w ++ r))) with _ | q
    · rw [e] at h; cases h
    · have := denF_ok hi n (w ++ r) q e
      rw [e] at h
      rw [← Option.some.inj h, this]
      exact ⟨rfl, w, rfl, ws_not_stop hw⟩
  | _, _, _, .obj0 (l := l) (w := w') hw', n + 1, w, r, p, hw, hr, h => by
    rw [List.cons_append, parseT, eatWs_cons (by decide)] at h
    dsimp only at h
    rw [if_neg (by decide), List.append_assoc, eatWs_append hw', List.singleton_append, eatWs_cons (by decide)] at h
    cases n with
    | zero => simp [objL] at h
    | succ n =>
      rw [objL, if_pos rfl] at h
      rw [← Option.some.inj h]
      exact ⟨rfl, w, rfl, ws_not_stop hw⟩
  | _, _, _, .obj (l := l) (l' := l') (t := t) hi, n + 1, w, r, p, hw, hr, h => by
    rw [List.cons_append, parseT, eatWs_cons (by decide)] at h
    dsimp only at h
    rw [if_neg (by decide), List.append_assoc, List.singleton_append] at h
    rcases e : objL n l (eatWs (t ++ '}' :: (w ++ r))) with _ | q
    · rw [e] at h; cases h
    · have := denO_ok hi n (w ++ r) q e
      rw [e] at h
      rw [← Option.some.inj h, this]
      exact ⟨rfl, w, rfl, ws_not_stop hw⟩

theorem denV_ok : ∀ {d : T} {xs : List T} {t : List Char}, DenV d t xs → ∀ (n : Nat) (l : List T) (r : List Char) (p : List T × List Char),
    vecL n d l (eatWs (t ++ ']' :: r)) = some p → p = (l ++ xs, r)
  | _, _, _, _, 0, l, r, p, h => by simp [vecL] at h
  | _, _, _, .one (d := d) (x := x) (w1 := w1) (t := t) (w2 := w2) hw1 ht hw2, n + 1, l, r, p, h => by
    obtain ⟨c, q, e, hs, hst⟩ := den_head ht
    rw [List.append_assoc, eatWs_append hw1, List.append_assoc, e, List.cons_append, eatWs_cons hs, vecL, if_neg (not_stop_ne hst).2.2, ← List.cons_append, ← e] at h
    split at h
    · cases h
    · rename_i v' s' e'
      obtain ⟨e1, y, e2, hy⟩ := den_ok ht n w2 (']' :: r) _ hw2 (.inr ⟨_, _, rfl, rfl⟩) e'
      dsimp only at e1 e2
      rw [e2, skip_arr hy] at h
      cases n with
      | zero => simp [vecL] at h
      | succ n =>
        rw [vecL, if_pos rfl] at h
        rw [← Option.some.inj h, e1]
  | _, _, _, .cons (d := d) (x := x) (xs := xs) (w1 := w1) (t := t) (w2 := w2) (u := u) hw1 ht hw2 hu, n + 1, l, r, p, h => by
    obtain ⟨c, q, e, hs, hst⟩ := den_head ht
    rw [List.append_assoc, eatWs_append hw1, List.append_assoc, List.append_assoc, e, List.cons_append, eatWs_cons hs, vecL, if_neg (not_stop_ne hst).2.2, ← List.cons_append, ← e] at h
    split at h
    · cases h
    · rename_i v' s' e'
      obtain ⟨e1, y, e2, hy⟩ := den_ok ht n w2 (',' :: u ++ ']' :: r) _ hw2 (.inr ⟨_, _, rfl, rfl⟩) e'
      dsimp only at e1 e2
      rw [e2, List.cons_append, skip_arr_comma hy] at h
      have := denV_ok hu n _ r _ h
      rw [this, e1, List.append_assoc, List.singleton_append]

theorem denF_ok : ∀ {l l' : List T} {t : List Char}, DenF l t l' → ∀ (n : Nat) (r : List Char) (p : List T × List Char),
    fixL n l (eatWs (t ++ ']' :: r)) = some p → p = (l', r)
  | _, _, _, _, 0, r, p, h => by simp [fixL] at h
  | _, _, _, .one (a := a) (b := b) (l := l) (w1 := w1) (t := t) (w2 := w2) hw1 ht hw2, n + 1, r, p, h => by
    obtain ⟨c, q, e, hs, hst⟩ := den_head ht
    rw [List.append_assoc, eatWs_append hw1, List.append_assoc, e, List.cons_append, eatWs_cons hs, fixL, if_neg (not_stop_ne hst).2.2, ← List.cons_append, ← e] at h
    split at h
    · cases h
    · rename_i v' s' e'
      obtain ⟨e1, y, e2, hy⟩ := den_ok ht n w2 (']' :: r) _ hw2 (.inr ⟨_, _, rfl, rfl⟩) e'
      dsimp only at e1 e2
      rw [e2, skip_arr hy] at h
      cases n with
      | zero => simp [fixL] at h
      | succ n =>
        have e : fixL (n + 1) l (']' :: r) = some (l, r) := by
          cases l <;> rw [fixL, if_pos rfl]
        rw [e] at h
        rw [← Option.some.inj h, e1]
  | _, _, _, .cons (a := a) (b := b) (l := l) (l' := l') (w1 := w1) (t := t) (w2 := w2) (u := u) hw1 ht hw2 hu, n + 1, r, p, h => by
    obtain ⟨c, q, e, hs, hst⟩ := den_head ht
    rw [List.append_assoc, eatWs_append hw1, List.append_assoc, List.append_assoc, e, List.cons_append, eatWs_cons hs, fixL, if_neg (not_stop_ne hst).2.2, ← List.cons_append, ← e] at h
    split at h
    · cases h
    · rename_i v' s' e'
      obtain ⟨e1, y, e2, hy⟩ := den_ok ht n w2 (',' :: u ++ ']' :: r) _ hw2 (.inr ⟨_, _, rfl, rfl⟩) e'
      dsimp only at e1 e2
      rw [e2, List.cons_append, skip_arr_comma hy] at h
      rcases e3 : fixL n l (eatWs (u ++ ']' :: r)) with _ | q
      · rw [e3] at h; cases h
      · have := denF_ok hu n r _ e3
        rw [e3] at h
        rw [← Option.some.inj h, this, e1]
  | _, _, _, .extra1 (w1 := w1) (t := t) hw1 ht, n + 1, r, p, h => by
    obtain ⟨⟨c, q, e, hs⟩, -⟩ := id ht
    have hst := simple_not_stop ht
    rw [List.append_assoc, eatWs_append hw1, e, List.cons_append, eatWs_cons hs, fixL, if_neg (not_stop_ne (hst c (by rw [e]; exact List.mem_cons_self ..))).2.2, ← List.cons_append, ← e,
      skip_arr hst] at h
    cases n with
    | zero => simp [fixL] at h
    | succ n =>
      rw [fixL, if_pos rfl] at h
      exact (Option.some.inj h).symm
  | _, _, _, .extra (w1 := w1) (t := t) (u := u) hw1 ht hu, n + 1, r, p, h => by
    obtain ⟨⟨c, q, e, hs⟩, -⟩ := id ht
    have hst := simple_not_stop ht
    rw [List.append_assoc, eatWs_append hw1, List.append_assoc, e, List.cons_append, eatWs_cons hs, fixL, if_neg (not_stop_ne (hst c (by rw [e]; exact List.mem_cons_self ..))).2.2, ← List.cons_append,
      ← e, List.cons_append, skip_arr_comma hst] at h
    exact denF_ok hu n r _ h

theorem denO_ok : ∀ {l l' : List (List Char × T)} {t : List Char}, DenO l t l' → ∀ (n : Nat) (r : List Char) (p : List (List Char × T) × List Char),
    objL n l (eatWs (t ++ '}' :: r)) = some p → p = (l', r)
  | _, _, _, _, 0, r, p, h => by simp [objL] at h
  | _, _, _, .one (l := l) (l' := l') (k := k) (kt := kt) (w0 := w0) (w1 := w1) (w2 := w2) (t := t) (w3 := w3) hw0 hk hk0 hw1 hw2 ht hw3, n + 1, r, p, h => by
    rw [List.append_assoc, eatWs_append hw0, List.cons_append, eatWs_cons (by decide), objL, if_neg (by decide), List.append_assoc, List.cons_append, if_neg (by simp), readStr_text hk] at h
    dsimp only at h
    rw [List.drop_one, List.tail_cons, List.append_assoc, eatWs_append hw1, List.cons_append, eatWs_cons (by decide)] at h
    dsimp only at h
    rw [if_neg (by decide), cstr_eq hk0, List.append_assoc, eatWs_append hw2, List.append_assoc] at h
    obtain ⟨m, e⟩ := denM_ok ht n w3 ('}' :: r) hw3 ⟨'}', r, rfl, .inr rfl⟩ p h
    rw [eatComma, if_neg (by decide), eatWs_cons (by decide)] at e
    cases m with
    | zero => simp [objL] at e
    | succ m =>
      rw [objL, if_pos rfl] at e
      exact (Option.some.inj e).symm
  | _, _, _, .cons (l := l) (l' := l') (l'' := l'') (k := k) (kt := kt) (w0 := w0) (w1 := w1) (w2 := w2) (t := t) (w3 := w3) (u := u) hw0 hk hk0 hw1 hw2 ht hw3 hu, n + 1, r, p, h => by
    rw [List.append_assoc, eatWs_append hw0, List.cons_append, eatWs_cons (by decide), objL, if_neg (by decide), List.append_assoc, List.cons_append, if_neg (by simp), readStr_text hk] at h
    dsimp only at h
    rw [List.drop_one, List.tail_cons, List.append_assoc, eatWs_append hw1, List.cons_append, eatWs_cons (by decide)] at h
    dsimp only at h
    rw [if_neg (by decide), cstr_eq hk0, List.append_assoc, eatWs_append hw2, List.append_assoc, List.append_assoc, List.cons_append] at h
    obtain ⟨m, e⟩ := denM_ok ht n w3 (',' :: (u ++ '}' :: r)) hw3 ⟨',', _, rfl, .inl rfl⟩ p h
    rw [eatComma, if_pos rfl] at e
    exact denO_ok hu m r _ e

theorem denM_ok : ∀ {l l' : List (List Char × T)} {k t : List Char}, DenM l k t l' → ∀ (n : Nat) (w r : List Char), AllWs w → (∃ c q, r = c :: q ∧ (c = ',' ∨ c = '}')) →
    ∀ p, (match lookup k l with
      | none => objL n l (eatWs (eatComma ((eatWs (t ++ (w ++ r))).dropWhile fun c => c != ',' && c != '}')))
      | some a =>
        match parseT n a (eatWs (t ++ (w ++ r))) with
        | none => none
        | some (v, s) => objL n (replace k v l) (eatWs (eatComma (s.dropWhile fun c => c != ',' && c != '}')))) = some p → ∃ m, objL m l' (eatWs (eatComma r)) = some p
  | _, _, _, _, .known (pre := pre) (post := post) (k := k) (t := t) (a := a) (b := b) hk ht, n, w, r, hw, hr, p, h => by
    obtain ⟨c, q, e, hs, hst⟩ := den_head ht
    rw [lookup_known hk] at h
    dsimp only at h
    rw [e, List.cons_append, eatWs_cons hs, ← List.cons_append, ← e] at h
    split at h
    · cases h
    · rename_i v' s' e'
      obtain ⟨c', q', rfl, hc'⟩ := hr
      obtain ⟨e1, y, e2, hy⟩ := den_ok ht n w (c' :: q') _ hw (.inr ⟨_, _, rfl, by rcases hc' with rfl | rfl <;> rfl⟩) e'
      dsimp only at e1 e2
      rw [e2, skip_to (not_stop_skip hy).2 ⟨c', q', rfl, by rcases hc' with rfl | rfl <;> rfl⟩ (.inl rfl), e1, replace_known hk] at h
      exact ⟨n, h⟩
  | _, _, _, _, .unknown (l := l) (k := k) (t := t) hk ht, n, w, r, hw, hr, p, h => by
    obtain ⟨⟨c, q, e, hs⟩, -⟩ := id ht
    have hst := simple_not_stop ht
    obtain ⟨c', q', rfl, hc'⟩ := hr
    rw [lookup_unknown hk] at h
    dsimp only at h
    rw [e, List.cons_append, eatWs_cons hs, ← List.cons_append, ← e, ← List.append_assoc, skip_to (not_stop_skip (x := t ++ w) (fun c hc => by
      rcases List.mem_append.1 hc with hc | hc
      · exact hst c hc
      · exact ws_not_stop hw c hc)).2 ⟨c', q', rfl, by rcases hc' with rfl | rfl <;> rfl⟩ (.inl rfl)] at h
    exact ⟨n, h⟩
end

/-- The types before whose values blank space is skipped. -/
def T.Compound : T → Prop
  | .vec _ _ => True
  | .fix _ => True
  | .obj _ => True
  | _ => False

/-- **C188**: `ParseJSON` of a typed object ends for every text, well-formed or not, and whatever the object was before. -/
theorem C188_terminates (a : T) (s : List Char) : ∃ b, parseJ a s = some b := by
  obtain ⟨b, r, e, -⟩ := parseT_ends (2 * s.length + 1) a s (Nat.le_refl _)
  exact ⟨b, by rw [parseJ, e]; rfl⟩

/-- **C188**: `ParseJSON` stores the value of a JSON text into an object: members in any order, members that the object does not have ignored, members that the text does not have unchanged, numbers in
the range of their type. Blank space before the text is skipped for arrays and structures only, and what is ignored must be free of commas and brackets (both shown to matter below). -/
theorem C188_parse_partial {a b : T} {t w1 w2 : List Char} (h : Den a t b) (hw1 : AllWs w1) (hc : a.Compound ∨ w1 = []) (hw2 : AllWs w2) : parseJ a (w1 ++ (t ++ w2)) = some b := by
  obtain ⟨b', r, e, -⟩ := parseT_ends (2 * (w1 ++ (t ++ w2)).length + 1) a (w1 ++ (t ++ w2)) (Nat.le_refl _)
  have e2 : parseT (2 * (w1 ++ (t ++ w2)).length + 1) a (t ++ (w2 ++ [])) = some (b', r) := by
    rw [List.append_nil, ← e]
    rcases hc with hc | rfl
    · cases a with
      | vec d l => rw [parseT, parseT, eatWs_append hw1]
      | fix l => rw [parseT, parseT, eatWs_append hw1]
      | obj l => rw [parseT, parseT, eatWs_append hw1]
      | _ => exact hc.elim
    · rfl
  obtain ⟨h1, -⟩ := den_ok h _ w2 [] _ hw2 (.inl rfl) e2
  rw [parseJ, e, ← h1]
  rfl

/-! ## Writing -/

mutual
/-- `v` is an object of the type of `a`, and `a` an object of the type with empty vectors. The names of the members differ and have no characters that need an escape; characters are not among those that
separate values. -/
inductive Fits : T → T → Prop where
  | bool {x b : Bool} : Fits (.bool x) (.bool b)
  | int {lo hi x i : Int} : lo ≤ i → i ≤ hi → Fits (.int lo hi x) (.int lo hi i)
  | chr {x c : Char} : isSpace c = false → isStop c = false → c ≠ '"' → Fits (.chr x) (.chr c)
  | str {x s : List Char} : Fits (.str x) (.str s)
  | vec {d : T} {l : List T} : FitsV d l → Fits (.vec d []) (.vec d l)
  | fix {l l' : List T} : FitsF l l' → Fits (.fix l) (.fix l')
  | obj {l l' : List (List Char × T)} : FitsO l l' → (l'.map (·.1)).Nodup → Fits (.obj l) (.obj l')

inductive FitsV : T → List T → Prop where
  | nil {d : T} : FitsV d []
  | cons {d x : T} {l : List T} : Fits d x → FitsV d l → FitsV d (x :: l)

inductive FitsF : List T → List T → Prop where
  | nil : FitsF [] []
  | cons {a b : T} {l l' : List T} : Fits a b → FitsF l l' → FitsF (a :: l) (b :: l')

inductive FitsO : List (List Char × T) → List (List Char × T) → Prop where
  | nil : FitsO [] []
  | cons {k : List Char} {a b : T} {l l' : List (List Char × T)} : NameOk false k → Fits a b → FitsO l l' → FitsO ((k, a) :: l) ((k, b) :: l')
end

theorem FitsO.names : ∀ {l l' : List (List Char × T)}, FitsO l l' → l.map (·.1) = l'.map (·.1)
  | _, _, .nil => rfl
  | _, _, .cons _ _ h => by rw [List.map_cons, List.map_cons, h.names]

theorem space_ws : AllWs [' '] := fun c hc => by rw [List.mem_singleton] at hc; simp [hc]

mutual
theorem write_den : ∀ {a v : T}, Fits a v → ∀ level, ∃ t w, Den a t v ∧ AllWs w ∧ (a.Compound ∨ w = []) ∧ (∀ flag, writeT level flag none v = writeComma flag ++ (w ++ t)) ∧
    ∀ flag k, writeT level flag (some k) v = writeComma flag ++ (writeId level (some k) ++ t)
  | _, _, .bool (b := true), level => ⟨_, [], .tru, nil_ws, .inr rfl, fun flag => by simp [writeT, writeId], fun flag k => by simp [writeT]⟩
  | _, _, .bool (b := false), level => ⟨_, [], .fls, nil_ws, .inr rfl, fun flag => by simp [writeT, writeId], fun flag k => by simp [writeT]⟩
  | _, _, .int h1 h2, level => ⟨_, [], .int (decimal_text _) h1 h2, nil_ws, .inr rfl, fun flag => by simp [writeT, writeId], fun flag k => by simp [writeT]⟩
  | _, _, .chr h1 h2 h3, level => ⟨_, [], .chr h1 h2 h3, nil_ws, .inr rfl, fun flag => by simp [writeT, writeId], fun flag k => by simp [writeT]⟩
  | _, _, .str, level => ⟨_, [], .str (escape_text fun h => by cases h), nil_ws, .inr rfl, fun flag => by simp [writeT, writeId], fun flag k => by simp [writeT]⟩
  | _, _, .vec .nil, level => ⟨_, [], .vec0 nil_ws, nil_ws, .inr rfl, fun flag => by simp [writeT, writeId, writeTL], fun flag k => by simp [writeT, writeTL]⟩
  | _, _, .vec (.cons h1 h2), level => by
    obtain ⟨t, h3, h4⟩ := writeV_den (.cons h1 h2) (by simp) (deeper level)
    refine ⟨_, [], .vec (l := []) h3, nil_ws, .inr rfl, fun flag => ?_, fun flag k => ?_⟩
    · rw [writeT, h4]; simp [writeId, writeComma]
    · rw [writeT, h4]; simp [writeComma]
  | _, _, .fix .nil, level => ⟨_, [], .fix0 nil_ws, nil_ws, .inr rfl, fun flag => by simp [writeT, writeId, writeTL], fun flag k => by simp [writeT, writeTL]⟩
  | _, _, .fix (.cons h1 h2), level => by
    obtain ⟨t, h3, h4⟩ := writeF_den (.cons h1 h2) (by simp) (deeper level)
    refine ⟨_, [], .fix h3, nil_ws, .inr rfl, fun flag => ?_, fun flag k => ?_⟩
    · rw [writeT, h4]; simp [writeId, writeComma]
    · rw [writeT, h4]; simp [writeComma]
  | _, _, .obj .nil _, level => by
    refine ⟨_, line level, .obj0 (line_ws level), line_ws level, .inl trivial, fun flag => ?_, fun flag k => ?_⟩
    · simp [writeT, writeTO]
    · simp [writeT, writeTO]
  | _, _, .obj (.cons h0 h1 h2) hn, level => by
    obtain ⟨t, h3, h4⟩ := writeO_den (.cons h0 h1 h2) (by simp) [] (by simp) hn (deeper level) (line level) (line_ws level)
    refine ⟨_, line level, .obj h3, line_ws level, .inl trivial, fun flag => ?_, fun flag k => ?_⟩
    · rw [writeT, ← List.append_assoc (writeTO ..), h4]; simp [writeComma]
    · rw [writeT, ← List.append_assoc (writeTO ..), h4]; simp [writeComma]

theorem writeV_den : ∀ {d : T} {l : List T}, FitsV d l → l ≠ [] → ∀ level, ∃ t, DenV d t l ∧ ∀ flag, writeTL level flag l = writeComma flag ++ t
  | _, _, .nil, hn, level => absurd rfl hn
  | _, _, .cons h1 .nil, hn, level => by
    obtain ⟨t, w, h2, h3, -, h4, -⟩ := write_den h1 level
    refine ⟨_, .one h3 h2 nil_ws, fun flag => ?_⟩
    simp [writeTL, h4]
  | _, _, .cons h1 (.cons h1' h2'), hn, level => by
    obtain ⟨t, w, h2, h3, -, h4, -⟩ := write_den h1 level
    obtain ⟨u, h5, h6⟩ := writeV_den (.cons h1' h2') (by simp) level
    refine ⟨_, .cons h3 h2 nil_ws h5, fun flag => ?_⟩
    rw [writeTL, h4, h6]
    simp [writeComma]

theorem writeF_den : ∀ {l l' : List T}, FitsF l l' → l' ≠ [] → ∀ level, ∃ t, DenF l t l' ∧ ∀ flag, writeTL level flag l' = writeComma flag ++ t
  | _, _, .nil, hn, level => absurd rfl hn
  | _, _, .cons h1 .nil, hn, level => by
    obtain ⟨t, w, h2, h3, -, h4, -⟩ := write_den h1 level
    refine ⟨_, .one h3 h2 nil_ws, fun flag => ?_⟩
    simp [writeTL, h4]
  | _, _, .cons h1 (.cons h1' h2'), hn, level => by
    obtain ⟨t, w, h2, h3, -, h4, -⟩ := write_den h1 level
    obtain ⟨u, h5, h6⟩ := writeF_den (.cons h1' h2') (by simp) level
    refine ⟨_, .cons h3 h2 nil_ws h5, fun flag => ?_⟩
    rw [writeTL, h4, h6]
    simp [writeComma]

theorem writeO_den : ∀ {l l' : List (List Char × T)}, FitsO l l' → l' ≠ [] → ∀ (pre : List (List Char × T)), (∀ k ∈ l'.map (·.1), k ∉ pre.map (·.1)) → (l'.map (·.1)).Nodup →
    ∀ level cw, AllWs cw → ∃ t, DenO (pre ++ l) t (pre ++ l') ∧ ∀ flag, writeTO level flag l' ++ cw = writeComma flag ++ t
  | _, _, .nil, hn, pre, hp, hd, level, cw, hc => absurd rfl hn
  | _, _, .cons (k := k) (a := a) (b := b) h0 h1 .nil, hn, pre, hp, hd, level, cw, hc => by
    obtain ⟨t, w, h2, h3, -, -, h4⟩ := write_den h1 level
    refine ⟨_, .one (line_ws level) (name_text h0) h0.2.2.1 nil_ws space_ws (.known (hp k (by simp)) h2) hc, fun flag => ?_⟩
    simp [writeTO, h4, writeId, cstr_eq h0.2.2.1]
  | _, _, .cons (k := k) (a := a) (b := b) h0 h1 (.cons (k := k') (a := a') (b := b') (l := l) (l' := l') h0' h1' h2'), hn, pre, hp, hd, level, cw, hc => by
    obtain ⟨t, w, h2, h3, -, -, h4⟩ := write_den h1 level
    rw [List.map_cons, List.nodup_cons] at hd
    obtain ⟨u, h5, h6⟩ := writeO_den (.cons h0' h1' h2') (by simp) (pre ++ [(k, b)]) (fun j hj => by
      rw [List.map_append, List.mem_append, not_or]
      refine ⟨hp j (List.mem_cons_of_mem _ hj), ?_⟩
      simp only [List.map_cons, List.map_nil, List.mem_singleton]
      rintro rfl
      exact hd.1 hj) hd.2 level cw hc
    rw [List.append_assoc, List.append_assoc, List.singleton_append, List.singleton_append] at h5
    refine ⟨_, .cons (line_ws level) (name_text h0) h0.2.2.1 nil_ws space_ws (.known (hp k (by simp)) h2) nil_ws h5, fun flag => ?_⟩
    rw [writeTO, h4, List.append_assoc, h6]
    simp [writeComma, writeId, cstr_eq h0.2.2.1]
end

/-- **C189**: `WriteJSON` of a typed object, compact or pretty, writes a text (after blank space) that denotes the object. -/
theorem C189_grammar_partial {a v : T} (h : Fits a v) (pretty : Nat) : ∃ w t, AllWs w ∧ Den a t v ∧ writeJ pretty v = w ++ t := by
  obtain ⟨t, w, h1, h2, -, h3, -⟩ := write_den h pretty
  exact ⟨w, t, h2, h1, by rw [writeJ, h3]; rfl⟩

/-- **C189**: `ParseJSON` into an object with empty vectors gives back the object that `WriteJSON` wrote, compact or pretty, with blank space behind it or not. -/
theorem C189_roundtrip_partial {a v : T} (h : Fits a v) (pretty : Nat) {w : List Char} (hw : AllWs w) : parseJ a (writeJ pretty v ++ w) = some v := by
  obtain ⟨t, w', h1, h2, hc, h3, -⟩ := write_den h pretty
  have := C188_parse_partial h1 h2 hc hw
  rw [writeJ, h3, writeComma, if_neg (by decide), List.nil_append, List.append_assoc]
  exact this

/-! ## Examples and counterexamples -/

/-- A structure with a vector of pairs, a flag and a name. -/
def blank : T := .obj [("v".toList, .vec (.fix [.int (-2 ^ 31) (2 ^ 31 - 1) 0, .bool false]) []), ("f".toList, .bool false), ("s".toList, .str [])]

def sample : T :=
  .obj [("v".toList, .vec (.fix [.int (-2 ^ 31) (2 ^ 31 - 1) 0, .bool false]) [.fix [.int (-2 ^ 31) (2 ^ 31 - 1) (-7), .bool true], .fix [.int (-2 ^ 31) (2 ^ 31 - 1) 40, .bool false]]),
    ("f".toList, .bool true), ("s".toList, .str "a,\"]".toList)]

example : Fits blank sample := by
  refine .obj (.cons ⟨by decide, by decide, by decide, fun h => by cases h⟩ (.vec (.cons (.fix (.cons (.int (by decide) (by decide)) (.cons .bool .nil)))
    (.cons (.fix (.cons (.int (by decide) (by decide)) (.cons .bool .nil))) .nil))) (.cons ⟨by decide, by decide, by decide, fun h => by cases h⟩ .bool
    (.cons ⟨by decide, by decide, by decide, fun h => by cases h⟩ .str .nil))) (by decide)

example : writeJ 0 sample = "{\"v\": [[-7,true],[40,false]],\"f\": true,\"s\": \"a,\\\"]\"}".toList := by
  simp [writeJ, sample, writeT, writeTL, writeTO, writeComma, writeId, line, deeper, cstr, escape, decimal, digits]

/-- Members in another order, with one that the structure does not have and one that stays as it is. -/
example : Den blank "{ \"s\" : \"x\", \"zz\": 1.5e3 ,\"v\":[ [ 1 ] ]}".toList
    (.obj [("v".toList, .vec (.fix [.int (-2 ^ 31) (2 ^ 31 - 1) 0, .bool false]) [.fix [.int (-2 ^ 31) (2 ^ 31 - 1) 1, .bool false]]), ("f".toList, .bool false), ("s".toList, .str "x".toList)]) := by
  have p : ∀ c : Char, c ≠ '"' → c ≠ '\\' → StrText false [c] [c] := fun c h1 h2 => .plain h1 h2 (fun h => by cases h) .nil
  have h1 : Den (.int (-2 ^ 31) (2 ^ 31 - 1) 0) ['1'] (.int (-2 ^ 31) (2 ^ 31 - 1) 1) := .int (.pos (ds := ['1']) ⟨by decide, by decide, by decide⟩) (by decide) (by decide)
  have h2 := Den.fix (.one (l := [.bool false]) space_ws h1 space_ws)
  have h3 := Den.vec (l := []) (.one space_ws h2 space_ws)
  have o3 := DenO.one (l := [("v".toList, .vec (.fix [.int (-2 ^ 31) (2 ^ 31 - 1) 0, .bool false]) []), ("f".toList, .bool false), ("s".toList, .str "x".toList)]) nil_ws (p 'v' (by decide) (by decide))
    (by decide) nil_ws nil_ws (.known (pre := []) (by simp) h3) nil_ws
  have o2 := DenO.cons (k := "zz".toList) (kt := "zz".toList) (t := "1.5e3".toList) space_ws (.plain (by decide) (by decide) (fun h => by cases h) (p 'z' (by decide) (by decide))) (by decide) nil_ws space_ws
    (.unknown (by decide) ⟨⟨'1', _, rfl, by decide⟩, by decide, by decide, by decide⟩) space_ws o3
  exact .obj (.cons (l := [("v".toList, .vec (.fix [.int (-2 ^ 31) (2 ^ 31 - 1) 0, .bool false]) []), ("f".toList, .bool false), ("s".toList, .str [])]) space_ws (p 's' (by decide) (by decide)) (by decide)
    space_ws space_ws (.known (pre := [("v".toList, .vec (.fix [.int (-2 ^ 31) (2 ^ 31 - 1) 0, .bool false]) []), ("f".toList, .bool false)]) (by decide) (.str (p 'x' (by decide) (by decide)))) nil_ws o2)

/-- An `int16_t`. -/
abbrev short (i : Int) : T := .int (-2 ^ 15) (2 ^ 15 - 1) i

/-- **C188**: parsing into a vector that has elements keeps them in front of the new ones. -/
theorem C188_append_counterexample : parseJ (.vec (short 0) [short 1]) "[2]".toList = some (.vec (short 0) [short 1, short 2]) := by
  simp [parseJ, parseT, vecL, fixL, eatWs, isSpace, parseBool, boolWord, parseStr, parseChar, scanChar, eatQuoted, eatComma, parseInt, scanInt, isStop, splitSign, decNum, isDigit, List.takeWhile, List.dropWhile]

/-- **C188**: after a member that the structure does not have and that is itself an object, the members that follow are lost. -/
theorem C188_unknown_counterexample : parseJ (.obj [("a".toList, short 0)]) "{\"x\":{\"b\":1},\"a\":3}".toList = some (.obj [("a".toList, short 0)]) := by
  simp [parseJ, parseT, objL, eatWs, isSpace, readStr, eatChar, getc, cstr, lookup, eatComma]

/-- **C188**: for numbers in quotes every second one is lost. -/
theorem C188_quoted_counterexample : parseJ (.vec (short 0) []) "[\"5\",\"6\",\"7\"]".toList = some (.vec (short 0) [short 5, short 7]) := by
  simp [parseJ, parseT, vecL, fixL, eatWs, isSpace, parseBool, boolWord, parseStr, parseChar, scanChar, eatQuoted, eatComma, parseInt, scanInt, isStop, splitSign, decNum, isDigit, List.takeWhile, List.dropWhile]

/-- **C188**: a number that is out of range is not only clamped: the members that follow are lost. -/
theorem C188_range_counterexample : parseJ (.obj [("a".toList, short 0), ("b".toList, short 0)]) "{\"a\":40000,\"b\":1}".toList = some (.obj [("a".toList, short 32767), ("b".toList, short 0)]) := by
  simp [parseJ, parseT, objL, eatWs, isSpace, readStr, eatChar, getc, cstr, lookup, eatComma, parseInt, scanInt, isStop, splitSign, decNum, isDigit, replace, List.takeWhile]

/-- **C188**: blank space before a flag makes it false, blank space before a string becomes part of it. -/
theorem C188_blank_counterexample : parseJ (.bool true) " true".toList = some (.bool false) ∧ parseJ (.str []) " \"a\"".toList = some (.str " \"a\"".toList) := by
  constructor
  · simp [parseJ, parseT, vecL, fixL, eatWs, isSpace, parseBool, boolWord, parseStr, parseChar, scanChar, eatQuoted, eatComma, parseInt, scanInt, isStop, splitSign, decNum, isDigit, List.takeWhile, List.dropWhile]
  · simp [parseJ, parseT, vecL, fixL, eatWs, isSpace, parseBool, boolWord, parseStr, parseChar, scanChar, eatQuoted, eatComma, parseInt, scanInt, isStop, splitSign, decNum, isDigit, List.takeWhile, List.dropWhile]

/-- **C189**: an `int8_t` is written as a character, not as a number, and the separators among the characters are not read back: here the values 44 and 98 in an array of two. -/
theorem C189_char_counterexample : writeJ 0 (.fix [.chr ',', .chr 'b']) = "[,,b]".toList ∧ parseJ (.fix [.chr 'x', .chr 'y']) "[,,b]".toList = some (.fix [.chr 'x', .chr 'y']) ∧
    parseJ (.fix [.chr 'x', .chr 'y']) "[44,98]".toList = some (.fix [.chr '4', .chr '9']) := by
  refine ⟨?_, ?_, ?_⟩
  · simp [writeJ, writeT, writeTL, writeComma, writeId]
  · simp [parseJ, parseT, vecL, fixL, eatWs, isSpace, parseBool, boolWord, parseStr, parseChar, scanChar, eatQuoted, eatComma, parseInt, scanInt, isStop, splitSign, decNum, isDigit, List.takeWhile, List.dropWhile]
  · simp [parseJ, parseT, vecL, fixL, eatWs, isSpace, parseBool, boolWord, parseStr, parseChar, scanChar, eatQuoted, eatComma, parseInt, scanInt, isStop, splitSign, decNum, isDigit, List.takeWhile, List.dropWhile]

end Verif.JsonTyped
