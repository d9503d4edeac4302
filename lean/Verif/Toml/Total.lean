import Verif.Toml.Values
/-!
# Reading comes to an end
-/

namespace Verif.Toml
open Verif.Json (isSpace isDigit decNum splitSign cstr)

variable {D : Type}

theorem eatAll_suffix (s : List Char) : eatAll s <:+ s := by
  induction h : s.length using Nat.strongRecOn generalizing s with
  | ind n ih =>
    cases s with
    | nil => rw [eatAll]; exact List.suffix_refl _
    | cons c s =>
      rw [List.length_cons] at h
      rw [eatAll]
      split
      · have h1 := toNl_le s
        exact ((ih _ (by omega) (toNl s) rfl).trans (dropWhile_suffix _ _)).trans (List.suffix_cons _ _)
      · split
        · exact (ih _ (by omega) s rfl).trans (List.suffix_cons _ _)
        · exact List.suffix_refl _

theorem eatAll_first {s r : List Char} {c : Char} (h : eatAll s = c :: r) : c ≠ '#' ∧ isSpace c = false := by
  induction hn : s.length using Nat.strongRecOn generalizing s with
  | ind n ih =>
    cases s with
    | nil => rw [eatAll] at h; cases h
    | cons d s =>
      rw [List.length_cons] at hn
      rw [eatAll] at h
      split at h
      · have h1 := toNl_le s
        exact ih _ (by omega) h rfl
      · split at h
        · exact ih _ (by omega) h rfl
        · rename_i h1 h2
          cases h
          exact ⟨h1, by simpa using h2⟩

theorem single_suffix (ml : Bool) (s : List Char) : (single ml s).2 <:+ s := by
  induction h : s.length using Nat.strongRecOn generalizing s with
  | ind n ih =>
    cases s with
    | nil => rw [single]; exact List.suffix_refl _
    | cons c s =>
      rw [List.length_cons] at h
      rw [single]
      split
      · exact List.suffix_refl _
      · have := eatChar_length ml c s
        exact ((ih _ (by omega) (eatChar ml (c :: s)).2 rfl).trans (eatChar_suffix ml c s)).trans (List.suffix_cons _ _)

theorem multi_nil : multi [] = (['\xff'], []) := by rw [multi]

theorem multi_suffix (s : List Char) : (multi s).2 <:+ s := by
  induction h : s.length using Nat.strongRecOn generalizing s with
  | ind n ih =>
    rw [multi.eq_def]
    split
    · exact List.suffix_refl _
    next c s =>
      rw [List.length_cons] at h
      split
      · split
        · dsimp only; rw [multi_nil]; exact List.nil_suffix
        next d s =>
          rw [List.length_cons] at h
          split
          · split
            · dsimp only; rw [multi_nil]; exact List.nil_suffix
            next e s =>
              have : e :: s <:+ c :: d :: e :: s := (List.suffix_cons _ _).trans (List.suffix_cons _ _)
              split
              · exact this
              · exact (ih _ (by omega) (e :: s) rfl).trans this
          · exact (ih _ (by simp only [List.length_cons]; omega) (d :: s) rfl).trans (List.suffix_cons _ _)
      · have := eatChar_length true c s
        exact ((ih _ (by omega) (eatChar true (c :: s)).2 rfl).trans (eatChar_suffix true c s)).trans (List.suffix_cons _ _)

theorem multiLit_nil : multiLit [] = (['\xff'], []) := by rw [multiLit]

theorem multiLit_suffix (s : List Char) : (multiLit s).2 <:+ s := by
  induction h : s.length using Nat.strongRecOn generalizing s with
  | ind n ih =>
    rw [multiLit.eq_def]
    split
    · exact List.suffix_refl _
    next c s =>
      rw [List.length_cons] at h
      split
      · split
        · dsimp only; rw [multiLit_nil]; exact List.nil_suffix
        next d s =>
          rw [List.length_cons] at h
          split
          · split
            · dsimp only; rw [multiLit_nil]; exact List.nil_suffix
            next e s =>
              have : e :: s <:+ c :: d :: e :: s := (List.suffix_cons _ _).trans (List.suffix_cons _ _)
              split
              · exact this
              · exact (ih _ (by omega) (e :: s) rfl).trans this
          · exact (ih _ (by simp only [List.length_cons]; omega) (d :: s) rfl).trans (List.suffix_cons _ _)
      · exact (ih _ (by omega) s rfl).trans (List.suffix_cons _ _)

theorem basic_suffix (ml : Bool) (s : List Char) : (basic ml s).2 <:+ s := by
  rcases s with _ | ⟨c, _ | ⟨d, r⟩⟩
  · rw [basic]; exact List.suffix_refl _
  · rw [basic]
    split
    · exact List.nil_suffix
    · exact (eat1_suffix _ _).trans (single_suffix _ _)
  · have h2 : d :: r <:+ c :: d :: r := List.suffix_cons _ _
    rw [basic]
    by_cases hc : c = '"'
    · rw [if_pos hc]
      dsimp only
      by_cases hd : d = '"' ∧ ml = true
      · rw [if_pos hd]
        exact (((eat1_suffix _ _).trans (multi_suffix _)).trans (eatNewline_suffix r)).trans ((List.suffix_cons _ _).trans h2)
      · rw [if_neg hd]
        exact (eat1_suffix _ _).trans h2
    · rw [if_neg hc]
      exact (eat1_suffix _ _).trans (single_suffix _ _)

theorem literal_suffix (ml : Bool) (s : List Char) : (literal ml s).2 <:+ s := by
  rcases s with _ | ⟨c, _ | ⟨d, r⟩⟩
  · rw [literal]; exact List.suffix_refl _
  · rw [literal]
    split
    · exact List.nil_suffix
    · exact (eat1_suffix _ _).trans (dropWhile_suffix _ _)
  · have h2 : d :: r <:+ c :: d :: r := List.suffix_cons _ _
    rw [literal]
    by_cases hc : c = '\''
    · rw [if_pos hc]
      dsimp only
      by_cases hd : d = '\'' ∧ ml = true
      · rw [if_pos hd]
        exact (((eat1_suffix _ _).trans (multiLit_suffix _)).trans (eatNewline_suffix r)).trans ((List.suffix_cons _ _).trans h2)
      · rw [if_neg hd]
        exact (eat1_suffix _ _).trans h2
    · rw [if_neg hc]
      exact (eat1_suffix _ _).trans (dropWhile_suffix _ _)

theorem parseString_suffix (ml : Bool) (e1 e2 : Char) (s : List Char) : (parseString ml e1 e2 s).2 <:+ s := by
  rw [parseString]
  have h := dropWhile_suffix isBlank s
  rw [eatWs]
  split
  · exact List.nil_suffix
  next c r hr =>
    rw [hr] at h
    split
    · exact ((basic_suffix ml r).trans (List.suffix_cons _ _)).trans h
    · split
      · exact ((literal_suffix ml r).trans (List.suffix_cons _ _)).trans h
      · exact (dropWhile_suffix _ _).trans h

/-- A key that starts with none of the characters that end it is not empty. -/
theorem parseString_progress {ml : Bool} {e1 e2 c : Char} {s : List Char} (hb : ¬Blank c) (hn : ¬NL c) (h1 : c ≠ e1) (h2 : c ≠ e2) : (parseString ml e1 e2 (c :: s)).2 <:+ s := by
  rw [parseString, eatWs_cons hb]
  dsimp only
  split
  · exact basic_suffix ml s
  · split
    · exact literal_suffix ml s
    · rw [bare]
      dsimp only
      rw [List.dropWhile_cons, if_pos (by simp [isNl_false hn, h1, h2])]
      exact dropWhile_suffix _ _

/-- The extraction of a `double` does not put anything into the stream. -/
def FP.Forward (fp : FP D) : Prop := ∀ s, (fp.get s).2 <:+ s

theorem getInt_suffix {s r : List Char} {i : Int} (h : getInt s = some (i, r)) : r <:+ s := by
  rw [getInt] at h
  have hs := dropWhile_suffix isSpace s
  split at h
  · cases h
  next c q hq =>
    rw [hq] at hs
    have ha : (splitSign (c :: q)).2 <:+ c :: q := by
      rw [splitSign]
      split
      · exact List.suffix_cons _ _
      · split
        · exact List.suffix_cons _ _
        · exact List.suffix_refl _
    dsimp only at h
    generalize (if (splitSign (c :: q)).1 = true then (-(decNum 0 ((splitSign (c :: q)).2.takeWhile isDigit) : Int))
      else (decNum 0 ((splitSign (c :: q)).2.takeWhile isDigit) : Int)) = v at h
    split at h
    · cases h; exact List.nil_suffix
    · split at h
      · cases h; exact List.nil_suffix
      · split at h
        · cases h; exact List.nil_suffix
        · cases h
          exact ((dropWhile_suffix _ _).trans ha).trans hs

theorem getDbl_suffix {fp : FP D} (hf : fp.Forward) {s r : List Char} {d : D} (h : getDbl fp s = some (d, r)) : r <:+ s := by
  rw [getDbl] at h
  have hs := dropWhile_suffix isSpace s
  split at h
  · cases h
  next c q hq =>
    rw [hq] at hs
    have := hf (c :: q)
    rw [Option.some.inj h] at this
    exact this.trans hs

theorem parseNumber_suffix {α : Type} {get : List Char → Option (α × List Char)} (hg : ∀ s d r, get s = some (d, r) → r <:+ s) {old v : α} {s r : List Char}
    (h : parseNumber get old s = .ok (v, r)) : r <:+ s := by
  have hp : ∀ s, (match get s with | none => Except.error Err.ub | some r => .ok r) = .ok (v, r) → r <:+ s := by
    intro s h
    cases hs : get s with
    | none => rw [hs] at h; cases h
    | some a => rw [hs] at h; cases h; exact hg _ _ _ hs
  rw [parseNumber.eq_def] at h
  dsimp only at h
  split at h
  · exact hp _ h
  next c q =>
    split at h
    · cases h; exact List.suffix_refl _
    · split at h
      · cases hs : get q with
        | none => rw [hs] at h; cases h
        | some a =>
          rw [hs] at h
          cases h
          exact (((List.drop_suffix _ _).trans (dropWhile_suffix _ _)).trans (hg q _ _ hs)).trans (List.suffix_cons _ _)
      · exact hp _ h

theorem parseNumber_hang {α : Type} {get : List Char → Option (α × List Char)} {old : α} {s : List Char} : parseNumber get old s ≠ .error .hang := by
  have hp : ∀ s, (match get s with | none => (Except.error Err.ub : R (α × List Char)) | some r => .ok r) ≠ .error .hang := by
    intro s h
    cases hs : get s with
    | none => rw [hs] at h; cases h
    | some a => rw [hs] at h; cases h
  intro h
  rw [parseNumber.eq_def] at h
  dsimp only at h
  split at h
  · exact hp _ h
  next c q =>
    split at h
    · cases h
    · split at h
      · cases hs : get q with
        | none => rw [hs] at h; cases h
        | some a => rw [hs] at h; cases h
      · exact hp _ h

theorem matchWord_suffix : ∀ (w s : List Char), (matchWord w s).2 <:+ s
  | [], s => by rw [matchWord]; exact List.suffix_refl _
  | _ :: _, [] => by rw [matchWord]; exact List.suffix_refl _
  | w :: ws, c :: s => by
    rw [matchWord]
    split
    · exact List.suffix_refl _
    · split
      · exact List.suffix_cons _ _
      · exact (matchWord_suffix ws s).trans (List.suffix_cons _ _)

theorem parseBool_suffix (s : List Char) : (parseBool s).2 <:+ s := by
  rw [parseBool]
  have hs := dropWhile_suffix isBlank s
  rw [eatWs]
  split
  · exact List.nil_suffix
  next c q hq =>
    rw [hq] at hs
    split
    · dsimp only
      split
      · exact (dropWhile_suffix _ _).trans hs
      · exact List.nil_suffix
    · exact (matchWord_suffix _ _).trans hs

/-- A function of the stream that only reads and does not loop on a text without NUL. -/
def Ends {α : Type} (g : List Char → R (α × List Char)) : Prop :=
  ∀ s, '\x00' ∉ s → g s ≠ .error .hang ∧ ∀ a r, g s = .ok (a, r) → r <:+ s

theorem mem_suffix {s r : List Char} (h : r <:+ s) (hs : '\x00' ∉ s) : '\x00' ∉ r := fun hm => hs (h.subset hm)

theorem skip_lt {p : Char → Bool} {x : Char} {c : Char} {s r : List Char} (h : r <:+ c :: s) (hc : p c = true ∨ c = x) : (eat1 x (r.dropWhile p)).length < (c :: s).length := by
  have h1 := (eat1_suffix x (r.dropWhile p)).length_le
  have h2 := (dropWhile_suffix p r).length_le
  have h3 := h.length_le
  by_cases he : r.length = (c :: s).length
  · have : r = c :: s := h.eq_of_length he
    subst this
    rcases hc with hc | hc
    · rw [List.dropWhile_cons, if_pos hc] at h1 ⊢
      have := (dropWhile_suffix p s).length_le
      simp only [List.length_cons]
      omega
    · by_cases hp : p c = true
      · rw [List.dropWhile_cons, if_pos hp] at h1 ⊢
        have := (dropWhile_suffix p s).length_le
        simp only [List.length_cons]
        omega
      · rw [List.dropWhile_cons, if_neg hp, eat1, if_pos hc]
        simp
  · omega

theorem arrLoop_ends {α : Type} {add : List Char → R (α × List Char)} (ha : Ends add) : ∀ (n : Nat) (v : List α) (s : List Char), '\x00' ∉ s → s.length < n →
    arrLoop add n v s ≠ .error .hang ∧ ∀ a r, arrLoop add n v s = .ok (a, r) → r <:+ s
  | 0, _, _, _, h => absurd h (Nat.not_lt_zero _)
  | n + 1, v, [], _, _ => ⟨by rw [arrLoop]; simp, fun a r h => by rw [arrLoop] at h; cases h; exact List.suffix_refl _⟩
  | n + 1, v, c :: s, h0, hn => by
    rw [arrLoop]
    split
    · exact ⟨by simp, fun a r h => by cases h; exact List.suffix_refl _⟩
    next hc =>
      have h1 := ha (c :: s) h0
      cases hx : add (c :: s) with
      | error e =>
        rw [hx] at h1
        exact ⟨fun h => h1.1 (by cases h; rfl), fun a r h => by cases h⟩
      | ok x =>
        dsimp only
        have h2 := h1.2 x.1 x.2 hx
        have h3 : eatAll (eat1 ',' (x.2.dropWhile fun c => !(c == ',' || c == ']'))) <:+ eat1 ',' (x.2.dropWhile fun c => !(c == ',' || c == ']')) := eatAll_suffix _
        have h4 : eat1 ',' (x.2.dropWhile fun c => !(c == ',' || c == ']')) <:+ c :: s := ((eat1_suffix _ _).trans (dropWhile_suffix _ _)).trans h2
        have h5 := skip_lt (p := fun c => !(c == ',' || c == ']')) (x := ',') h2 (by
          by_cases h : c = ','
          · exact Or.inr h
          · exact Or.inl (by simp [h, hc]))
        have h6 := h3.length_le
        obtain ⟨i1, i2⟩ := arrLoop_ends ha n (v ++ [x.1]) _ (mem_suffix (h3.trans h4) h0) (by omega)
        exact ⟨i1, fun a r h => (i2 a r h).trans (h3.trans h4)⟩

theorem keyVal_ends {V : Type} {f : Key → V → List Char → R (V × List Char)} (hf : ∀ k v, Ends (f k v)) (v : V) (s : List Char) (h0 : '\x00' ∉ s) :
    keyVal f v s ≠ .error .hang ∧ ∀ b v' r, keyVal f v s = .ok (b, v', r) → r <:+ s ∧
      (∀ c q, s = c :: q → ¬Blank c → ¬NL c → r.length < s.length) := by
  have h1 := parseString_suffix false '=' '\x00' s
  have hp : ∀ c q, s = c :: q → ¬Blank c → ¬NL c → c ≠ '=' → (parseString false '=' '\x00' s).2 <:+ q := by
    rintro c q rfl hb hn he
    exact parseString_progress hb hn he (fun h => h0 (h ▸ List.mem_cons_self ..))
  have hq : ∀ q, s = '=' :: q → parseString false '=' '\x00' s = ([], s) := by
    rintro q rfl
    rw [parseString, eatWs_cons (by unfold Blank; decide)]
    rfl
  have h2 : eatWs (parseString false '=' '\x00' s).2 <:+ (parseString false '=' '\x00' s).2 := dropWhile_suffix _ _
  rw [keyVal]
  cases he : eatWs (parseString false '=' '\x00' s).2 with
  | nil =>
    refine ⟨by simp, fun b v' r h => ?_⟩
    cases h
    exact ⟨List.nil_suffix, fun c q hs _ _ => by rw [hs]; simp⟩
  | cons d t =>
    rw [he] at h2
    dsimp only
    split
    next hd =>
      have h3 : t <:+ s := ((List.suffix_cons _ _).trans h2).trans h1
      have h4 := hf (cstr (parseString false '=' '\x00' s).1) v t (mem_suffix h3 h0)
      cases hx : f (cstr (parseString false '=' '\x00' s).1) v t with
      | error e =>
        rw [hx] at h4
        exact ⟨fun h => h4.1 (by cases h; rfl), fun b v' r h => by cases h⟩
      | ok x =>
        refine ⟨by simp, fun b v' r h => ?_⟩
        cases h
        have h5 := h4.2 x.1 x.2 hx
        refine ⟨h5.trans h3, fun c q hs hb hn => ?_⟩
        have := h5.length_le
        have := (h2.trans h1).length_le
        simp only [List.length_cons] at this
        omega
    next hd =>
      refine ⟨by simp, fun b v' r h => ?_⟩
      cases h
      refine ⟨h2.trans h1, fun c q hs hb hn => ?_⟩
      by_cases hc : c = '='
      · subst hc
        rw [hq q hs] at he
        rw [hs, eatWs_cons (by unfold Blank; decide)] at he
        cases he
        exact absurd rfl hd
      · have := (h2.trans (hp c q hs hb hn hc)).length_le
        rw [hs]
        simp only [List.length_cons] at this ⊢
        omega

theorem tblLoop_ends {V : Type} {f : Key → V → List Char → R (V × List Char)} (hf : ∀ k v, Ends (f k v)) : ∀ (n : Nat) (v : V) (s : List Char), '\x00' ∉ s → s.length < n →
    tblLoop f n v s ≠ .error .hang ∧ ∀ a r, tblLoop f n v s = .ok (a, r) → r <:+ s
  | 0, _, _, _, h => absurd h (Nat.not_lt_zero _)
  | n + 1, v, [], _, _ => ⟨by rw [tblLoop]; simp, fun a r h => by rw [tblLoop] at h; cases h; exact List.suffix_refl _⟩
  | n + 1, v, c :: s, h0, hn => by
    rw [tblLoop]
    split
    · exact ⟨by simp, fun a r h => by cases h; exact List.suffix_cons _ _⟩
    next hc =>
      split
      · exact ⟨by simp, fun a r h => by cases h; exact List.suffix_refl _⟩
      next hnl =>
        have h1 := keyVal_ends hf v (c :: s) h0
        cases hx : keyVal f v (c :: s) with
        | error e =>
          rw [hx] at h1
          exact ⟨fun h => h1.1 (by cases h; rfl), fun a r h => by cases h⟩
        | ok x =>
          obtain ⟨b, v', q⟩ := x
          dsimp only
          have h2 := (h1.2 b v' q hx).1
          have h3 : eatWs (eat1 ',' (q.dropWhile fun c => !(isNl c || c == ',' || c == '}'))) <:+ eat1 ',' (q.dropWhile fun c => !(isNl c || c == ',' || c == '}')) := dropWhile_suffix _ _
          have h4 : eat1 ',' (q.dropWhile fun c => !(isNl c || c == ',' || c == '}')) <:+ c :: s := ((eat1_suffix _ _).trans (dropWhile_suffix _ _)).trans h2
          have h5 := skip_lt (p := fun c => !(isNl c || c == ',' || c == '}')) (x := ',') h2 (by
            by_cases h : c = ','
            · exact Or.inr h
            · exact Or.inl (by simp [h, hc, hnl]))
          have h6 := h3.length_le
          obtain ⟨i1, i2⟩ := tblLoop_ends hf n v' _ (mem_suffix (h3.trans h4) h0) (by omega)
          exact ⟨i1, fun a r h => (i2 a r h).trans (h3.trans h4)⟩

theorem pairsLoop_ends {V : Type} {f : Key → V → List Char → R (V × List Char)} (hf : ∀ k v, Ends (f k v)) : ∀ (n : Nat) (v : V) (s : List Char), '\x00' ∉ s → (eatAll s).length < n →
    pairsLoop f n v (eatAll s) ≠ .error .hang ∧ ∀ a r, pairsLoop f n v (eatAll s) = .ok (a, r) → r <:+ s
  | 0, _, _, _, h => absurd h (Nat.not_lt_zero _)
  | n + 1, v, s, h0, hn => by
    have hs := eatAll_suffix s
    have hf1 := @eatAll_first s
    cases he : eatAll s with
    | nil => exact ⟨by rw [pairsLoop]; simp, fun a r h => by rw [pairsLoop] at h; cases h; exact List.nil_suffix⟩
    | cons c q =>
      rw [he] at hs hn
      have h00 := mem_suffix hs h0
      obtain ⟨-, hsp⟩ := hf1 he
      have hw : ¬(Blank c ∨ NL c) := fun h => by rw [isSpace_blank h] at hsp; cases hsp
      rw [pairsLoop]
      split
      · exact ⟨by simp, fun a r h => by cases h; exact hs⟩
      · have h1 := keyVal_ends hf v (c :: q) h00
        cases hx : keyVal f v (c :: q) with
        | error e =>
          rw [hx] at h1
          exact ⟨fun h => h1.1 (by cases h; rfl), fun a r h => by cases h⟩
        | ok x =>
          obtain ⟨b, v', t⟩ := x
          dsimp only
          obtain ⟨h2, h3⟩ := h1.2 b v' t hx
          have h4 := h3 c q rfl (fun h => hw (Or.inl h)) (fun h => hw (Or.inr h))
          have h5 : (if b then toNl t else t) <:+ t := by
            split
            · exact dropWhile_suffix _ _
            · exact List.suffix_refl _
          have h6 := (h5.length_le)
          have h7 := eatAll_le (if b then toNl t else t)
          obtain ⟨i1, i2⟩ := pairsLoop_ends hf n v' (if b then toNl t else t) (mem_suffix (h5.trans h2) h00) (by omega)
          exact ⟨i1, fun a r h => (i2 a r h).trans ((h5.trans h2).trans hs)⟩

theorem pairs_ends {V : Type} {f : Key → V → List Char → R (V × List Char)} (hf : ∀ k v, Ends (f k v)) (v : V) : Ends (pairs f v) :=
  fun s h0 => pairsLoop_ends hf _ v s h0 (Nat.lt_succ_self _)

theorem ends_ok {α : Type} {g : List Char → α × List Char} (h : ∀ s, (g s).2 <:+ s) : Ends fun s => (.ok (g s) : R (α × List Char)) :=
  fun s _ => ⟨by simp, fun a r e => by have := h s; rw [Except.ok.inj e] at this; exact this⟩

theorem ends_bind {α β : Type} {g : List Char → R (α × List Char)} (k : α → β) (h : Ends g) :
    Ends fun s => (match g s with | .error e => .error e | .ok (a, r) => .ok (k a, r) : R (β × List Char)) := by
  intro s h0
  have := h s h0
  dsimp only
  cases hg : g s with
  | error e => rw [hg] at this; exact ⟨fun h => this.1 (by cases h; rfl), fun a r h => by cases h⟩
  | ok x =>
    refine ⟨by simp, fun a r h => ?_⟩
    cases h
    exact this.2 x.1 x.2 hg

theorem ends_trans {α : Type} {g : List Char → R (α × List Char)} {s t : List Char} (h : Ends g) (hs : t <:+ s) (h0 : '\x00' ∉ s) :
    g t ≠ .error .hang ∧ ∀ a r, g t = .ok (a, r) → r <:+ s :=
  ⟨(h t (mem_suffix hs h0)).1, fun a r e => ((h t (mem_suffix hs h0)).2 a r e).trans hs⟩

theorem parseArray_ends {α : Type} {g : α → List Char → R (α × List Char)} (hg : ∀ x, Ends (g x)) (new : α) (st : State) (v : List α) : Ends (parseArray g new st v) := by
  intro s h0
  rw [parseArray]
  split
  · cases v.getLast? with
    | none => exact ⟨by simp, fun a r h => by cases h⟩
    | some x => exact ends_bind (fun x => v.dropLast ++ [x]) (hg x) s h0
  · split
    · exact ends_bind (fun x => v ++ [x]) (hg new) s h0
    · have hw : eatWs s <:+ s := dropWhile_suffix _ _
      split
      · exact ⟨by simp, fun a r h => by cases h; exact List.nil_suffix⟩
      next c q hq =>
        rw [hq] at hw
        have hw' : q <:+ s := (List.suffix_cons _ _).trans hw
        split
        · have hq' : eatAll q <:+ s := (eatAll_suffix q).trans hw'
          have := arrLoop_ends (hg new) ((eatAll q).length + 1) v (eatAll q) (mem_suffix hq' h0) (Nat.lt_succ_self _)
          exact ⟨this.1, fun a r h => (this.2 a r h).trans hq'⟩
        · exact ⟨by simp, fun a r h => by cases h; exact hw'⟩

theorem parseMany_ends {V : Type} {f : State → Key → V → List Char → R (V × List Char)} (hf : ∀ st k v, Ends (f st k v)) (st : State) (v : V) : Ends (parseMany f st v) := by
  intro s h0
  rw [parseMany.eq_def]
  cases st with
  | normal =>
    dsimp only
    have hw : eatWs s <:+ s := dropWhile_suffix _ _
    cases hq : eatWs s with
    | nil => exact ⟨by simp, fun a r h => by cases h; exact List.nil_suffix⟩
    | cons c q =>
      rw [hq] at hw
      have hq' : eatAll q <:+ s := ((eatAll_suffix q).trans (List.suffix_cons _ _)).trans hw
      dsimp only
      split
      · have := tblLoop_ends (hf .normal) ((eatAll q).length + 1) v (eatAll q) (mem_suffix hq' h0) (Nat.lt_succ_self _)
        exact ⟨this.1, fun a r h => (this.2 a r h).trans hq'⟩
      · exact ⟨by simp, fun a r h => by cases h; exact hw⟩
  | table =>
    dsimp only
    cases s with
    | nil => exact ⟨by simp, fun a r h => by cases h; exact List.nil_suffix⟩
    | cons c q =>
      dsimp only
      split
      · exact ends_trans (hf .table _ v) ((parseString_suffix _ _ _ q).trans (List.suffix_cons _ _)) h0
      · split
        · exact ends_trans (pairs_ends (hf .normal) v) (List.suffix_cons _ _) h0
        · exact ⟨by simp, fun a r h => by cases h; exact List.suffix_refl _⟩
  | inline =>
    dsimp only
    cases s with
    | nil => exact ⟨by simp, fun a r h => by cases h; exact List.nil_suffix⟩
    | cons c q =>
      dsimp only
      split
      · exact ends_trans (hf .inline _ v) ((parseString_suffix _ _ _ q).trans (List.suffix_cons _ _)) h0
      · split
        · exact ends_trans (pairs_ends (hf .normal) v) ((eat1_suffix _ _).trans (List.suffix_cons _ _)) h0
        · exact ⟨by simp, fun a r h => by cases h; exact List.suffix_refl _⟩

mutual
theorem parse_ends {fp : FP D} (hp : fp.Forward) : ∀ (t : Ty) (st : State) (v : t.Val D), Ends (parse fp t st v)
  | .str, st, v => ends_ok (g := parseString true '\x00' '\x00') (parseString_suffix _ _ _)
  | .int, st, v => fun s _ => ⟨parseNumber_hang, fun a r h => parseNumber_suffix (fun s d r h => getInt_suffix h) h⟩
  | .dbl, st, v => fun s _ => ⟨parseNumber_hang, fun a r h => parseNumber_suffix (fun s d r h => getDbl_suffix hp h) h⟩
  | .bool, st, v => ends_ok (g := parseBool) parseBool_suffix
  | .arr t, st, v => parseArray_ends (fun x => parse_ends hp t st x) (dflt fp t) st v
  | .obj fs, st, v => parseMany_ends (fun st k v => find_ends hp fs st k v) st v

theorem find_ends {fp : FP D} (hp : fp.Forward) : ∀ (fs : Fields) (st : State) (k : Key) (v : fs.Val D), Ends (find fp fs st k v)
  | .nil, st, k, v => ends_ok (g := fun s => (v, s)) fun s => List.suffix_refl _
  | .cons k t fs, st, key, v => by
    intro s h0
    rw [find]
    split
    · have h1 := parse_ends hp t st v.1 s h0
      cases hx : parse fp t st v.1 s with
      | error e => rw [hx] at h1; exact ⟨fun h => h1.1 (by cases h; rfl), fun a r h => by cases h⟩
      | ok x => exact ⟨by simp, fun a r h => by cases h; exact h1.2 _ _ hx⟩
    · have h1 := find_ends hp fs st key v.2 s h0
      cases hx : find fp fs st key v.2 s with
      | error e => rw [hx] at h1; exact ⟨fun h => h1.1 (by cases h; rfl), fun a r h => by cases h⟩
      | ok x => exact ⟨by simp, fun a r h => by cases h; exact h1.2 _ _ hx⟩
end

theorem eatLines_suffix (s : List Char) : eatLines s <:+ s := by
  induction h : s.length using Nat.strongRecOn generalizing s with
  | ind n ih =>
    cases s with
    | nil => rw [eatLines]; exact List.suffix_refl _
    | cons c s =>
      rw [eatLines]
      split
      · exact List.suffix_refl _
      · have := eatNewline_toNl_length c s
        exact ((ih _ (by omega) _ rfl).trans (eatNewline_suffix _)).trans (dropWhile_suffix _ _)

theorem header_ends {fp : FP D} (hp : fp.Forward) (fs : Fields) (st : State) (v : fs.Val D) : Ends (header fp fs st v) := by
  intro s h0
  have hw : eatWs (parseString false ']' '.' s).2 <:+ s := (dropWhile_suffix _ _).trans (parseString_suffix _ _ _ _)
  rw [header]
  cases he : eatWs (parseString false ']' '.' s).2 with
  | nil => exact ⟨by simp, fun a r h => by cases h; exact List.nil_suffix⟩
  | cons c q =>
    rw [he] at hw
    dsimp only
    split
    · exact ends_trans (find_ends hp fs st _ v) hw h0
    · exact ⟨by simp, fun a r h => by cases h; exact hw⟩

theorem rootLoop_ends {fp : FP D} (hp : fp.Forward) (fs : Fields) : ∀ (n : Nat) (v : fs.Val D) (s : List Char), '\x00' ∉ s → s.length < n → rootLoop fp fs n v s ≠ .error .hang
  | 0, _, _, _, h => absurd h (Nat.not_lt_zero _)
  | n + 1, v, [], _, _ => by rw [rootLoop]; simp
  | n + 1, v, c :: s, h0, hn => by
    have h00 : '\x00' ∉ s := fun h => h0 (List.mem_cons_of_mem _ h)
    have h01 : '\x00' ∉ s.drop 1 := fun h => h00 (List.mem_of_mem_drop h)
    have key : ∀ g : List Char → R (fs.Val D × List Char), Ends g → ∀ q, q <:+ s →
        (match g q with | .error e => Except.error e | .ok (v, s) => rootLoop fp fs n v (eatAll (eatLines s))) ≠ .error .hang := by
      intro g hg q hq
      have h1 := hg q (mem_suffix hq h00)
      cases hx : g q with
      | error e => rw [hx] at h1; exact fun h => h1.1 (by cases h; rfl)
      | ok x =>
        have h2 : eatAll (eatLines x.2) <:+ s := (((eatAll_suffix _).trans (eatLines_suffix _)).trans (h1.2 x.1 x.2 hx)).trans hq
        have := h2.length_le
        rw [List.length_cons] at hn
        exact rootLoop_ends hp fs n x.1 _ (mem_suffix h2 h00) (by omega)
    rw [rootLoop]
    split
    · simp
    · by_cases hd : s.head? = some '['
      · rw [if_pos hd]; exact key _ (header_ends hp fs .inline v) _ (List.drop_suffix _ _)
      · rw [if_neg hd]; exact key _ (header_ends hp fs .table v) _ (List.suffix_refl _)

theorem parseTOML_ends {fp : FP D} (hp : fp.Forward) (fs : Fields) (v : fs.Val D) (s : List Char) (h0 : '\x00' ∉ s) : parseTOML fp fs v s ≠ .error .hang := by
  have h1 := pairs_ends (fun k v => find_ends hp fs .normal k v) v s h0
  rw [parseTOML]
  cases hx : pairs (fun k v s => find fp fs .normal k v s) v s with
  | error e => rw [hx] at h1; exact fun h => h1.1 (by cases h; rfl)
  | ok x => exact rootLoop_ends hp fs _ x.1 x.2 (mem_suffix (h1.2 x.1 x.2 hx) h0) (Nat.lt_succ_self _)

end Verif.Toml
