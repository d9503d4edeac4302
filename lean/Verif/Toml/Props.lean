import Verif.Toml.Write
import Verif.Toml.Total
/-!
# Claims about the TOML engine
-/

namespace Verif.Toml
open Verif.Json (isSpace isDigit decNum splitSign cstr decimal decVal)

variable {D : Type}

deriving instance DecidableEq for Except

theorem by_dec {α : Type} [DecidableEq α] {a b : α} (h : decide (a = b) = true) : a = b := of_decide_eq_true h

/-- A `double` whose values are integers, for the examples. -/
def fpI : FP Int where
  show' := decimal
  get s := (getInt s).getD (0, [])
  zero := 0

theorem fpI_reads (i : Int) (h : -2 ^ 63 ≤ i ∧ i < 2 ^ 63) : fpI.Reads i (fpI.show' i) := by
  refine ⟨intForm_head (decimal_form i), fun r hr => ?_⟩
  have := getInt_form (b := []) ⟨decimal_form i, h⟩ blanks_nil hr
  change (getInt (decimal i ++ r)).getD (0, []) = _
  rw [List.nil_append] at this
  rw [this]
  rfl

theorem fpI_forward : fpI.Forward := by
  intro s
  change ((getInt s).getD (0, [])).2 <:+ s
  cases h : getInt s with
  | none => exact List.nil_suffix
  | some x => exact getInt_suffix h

/-! ## C122: strings -/

/-- C122: what `WriteTOML` writes for a string is read back as the same bytes, whatever they are and whatever follows. -/
theorem C122_round_trip (fp : FP D) (id : Option Key) (first : Bool) (s old r : List Char) (hr : r.head? ≠ some '"' ∧ r.head? ≠ some '\'') :
    parse fp .str .normal old (((writeInline fp .str id first s).1.drop (writeId first id).length) ++ r) = .ok (s, r) := by
  have e : (writeInline fp .str id first s).1.drop (writeId first id).length = '"' :: (escape s ++ ['"']) := by
    change (writeId first id ++ '"' :: (escape s ++ ['"'])).drop _ = _
    rw [List.drop_left]
  rw [e]
  exact congrArg Except.ok (parseString_form '\x00' '\x00' (.basic (escape_text s)) blanks_nil hr)

example : parse fpI .str .normal [] ("\"a\\\"\\n\\\\\" # c".toList) = .ok ("a\"\n\\".toList, " # c".toList) := by
  exact by_dec (α := R (List Char × List Char)) (by decide +kernel)

/-- C122: a string in any of the four forms is read as the bytes it denotes. -/
theorem C122_forms_partial (fp : FP D) (s x old b r : List Char) (h : StrForm s x) (hb : Blanks b) (hr : r.head? ≠ some '"' ∧ r.head? ≠ some '\'') :
    parse fp .str .normal old (b ++ (x ++ r)) = .ok (s, r) := by
  change Except.ok (parseString true '\x00' '\x00' _) = _
  rw [parseString_form _ _ h hb hr]
  rfl

example : StrForm "a\"b\n".toList "\"\"\"\na\\u0022\\\n  b\n\"\"\"".toList := by
  refine .multi (n := ['\n']) (t := "a\\u0022\\\n  b\n".toList) (Or.inr (Or.inl ⟨rfl, by decide⟩)) ?_
  refine .char (by decide) (by decide) ?_
  refine .esc (a := ['"']) (x := "\\u0022".toList) ?_ ?_
  · have := EscText.uni4 (l := [('0', 0), ('0', 0), ('2', 2), ('2', 2)]) (by decide) rfl
    exact this
  · refine .cont (b := "  ".toList) (fun c hc => Or.inl ?_) (fun c hc => ?_) (.char (by decide) (by decide) (.char (by decide) (by decide) .nil))
    · revert c; decide
    · cases hc; exact ⟨by unfold Blank; decide, by decide⟩

/-- C122 fails for the last code point: the escape of U+10FFFF is dropped. -/
theorem C122_last_code_point_counterexample (fp : FP D) (old : List Char) : parse fp .str .normal old "\"\\U0010FFFF\"".toList = .ok ([], []) := by
  change Except.ok (parseString true '\x00' '\x00' _) = _
  rw [show parseString true '\x00' '\x00' "\"\\U0010FFFF\"".toList = ([], []) by decide +kernel]
  rfl

/-! ## C123: documents -/

/-- C123: a document of the grammar is read to its end and has the effect on the object that the grammar says: every line and every section sets its field, wherever it stands. -/
theorem C123_document_partial (fp : FP D) (fs : Fields) (v v' : fs.Val D) (x : List Char) (h : Document fp fs v v' x) : parseTOML fp fs v x = .ok (v', []) :=
  document_ok h

/-- An object with a number, an object and an array of objects. -/
def exFields : Fields :=
  .cons ['a'] .int (.cons ['o'] (.obj (.cons ['s'] .str .nil)) (.cons ['l'] (.arr (.obj (.cons ['n'] .int .nil))) .nil))

def exVal (a : Int) (s : List Char) (l : List Int) : exFields.Val Int := (a, (s, ()), l.map fun n => (n, ()), ())

/-- `[["l"]]` adds an element, `zz` is not a field. -/
example : Document fpI exFields (exVal 0 [] []) (exVal 7 [] [5]) "#c\nzz = ?\na =7 # x\r\n[[\"l\"]]\nn = +5".toList := by
  refine .sections (x := "#c\nzz = ?\na =7 # x\r\n".toList) (s := "[[\"l\"]]\nn = +5".toList) (v' := exVal 7 [] []) ?_ ?_
  · refine .line (k := ['z', 'z']) (g := "#c\n".toList) (kt := ['z', 'z']) (b1 := [' ']) (b2 := [' ']) (x := ['?']) (y := []) (c := '\n') (v' := exVal 0 [] [])
      (.comment (x := ['c']) (by unfold NL; decide) (Or.inl rfl) .nil) (.bare ⟨by decide, by unfold BareChar; decide⟩) blanks_sp blanks_sp ?_ (fun c hc => by cases hc)
      (fun _ hc => (List.not_mem_nil hc).elim) (Or.inl rfl) ?_
    · exact Or.inr ⟨by decide, rfl, Or.inr ⟨by decide, rfl, Or.inr ⟨by decide, rfl, rfl, by unfold NL; decide⟩⟩⟩
    · refine .line (k := ['a']) (g := []) (kt := ['a']) (b1 := [' ']) (b2 := []) (x := ['7']) (y := " # x".toList) (c := '\r') (v' := exVal 7 [] []) (b := ['\n'])
        .nil (.bare ⟨by decide, by unfold BareChar; decide⟩) blanks_sp blanks_nil ?_ (fun c hc => by cases hc; exact Or.inr (Or.inr (Or.inr (Or.inr (Or.inl (Or.inl rfl))))))
        (by unfold NL; decide) (Or.inr rfl) (.gap (.ws (Or.inr (Or.inl rfl)) .nil))
      exact Or.inl ⟨rfl, ⟨.pos (ds := ['7']) (by decide) (by decide), show -2 ^ 63 ≤ (7 : Int) by decide, show (7 : Int) < 2 ^ 63 by decide⟩, rfl⟩
  · refine .last (elem := true) (k := ['l']) (ks := []) (kt := "\"l\"".toList) (t := []) (x := "\nn = +5".toList)
      (.basic (k := ['l']) (t := ['l']) (by decide) (.char (by decide) (by decide) (by unfold NL; decide) .nil)) .nil ?_
    refine Or.inr ⟨by decide, rfl, Or.inr ⟨by decide, rfl, Or.inl ⟨rfl, ⟨rfl, ((5 : Int), ()), ?_, rfl⟩, rfl⟩⟩⟩
    refine .last (k := ['n']) (g := ['\n']) (kt := ['n']) (b1 := [' ']) (b2 := [' ']) (x := ['+', '5']) (y := []) rfl (.ws (Or.inr (Or.inl rfl)) .nil)
      (.bare ⟨by decide, by unfold BareChar; decide⟩) blanks_sp blanks_sp ?_ (fun c hc => by cases hc) (fun _ hc => (List.not_mem_nil hc).elim)
    exact Or.inl ⟨rfl, ⟨.plus (ds := ['5']) (by decide) (by decide), by decide, by decide⟩, rfl⟩

/-- C123 fails for arrays of arrays: whatever follows the first inner array is not read. -/
theorem C123_nested_counterexample (fp : FP D) (t : Ty) (ht : t.isArr = false) (y : List (t.Val D)) (x r : List Char) (h : ValText fp (.arr t) [] y x) (hr : Stops r) :
    parse fp (.arr (.arr t)) .normal [] ('[' :: (x ++ r)) = .ok ([y], ']' :: r) := by
  obtain ⟨l, g, b, hl, hg, rfl, hi⟩ := h
  have hl : y = l := hl
  subst hl
  rw [ht] at hi
  have hi : Items _ y b := hi
  have h1 : parse fp (.arr t) .normal ([] : List (t.Val D)) ('[' :: (g ++ b) ++ r) = .ok (y, ']' :: r) := by
    obtain ⟨rem, ⟨q, rfl, hq⟩, e⟩ := val_ok fp (.arr t) ([] : List (t.Val D)) y ('[' :: (g ++ b)) ⟨y, g, b, rfl, hg, rfl, by rw [ht]; exact hi⟩ [] r blanks_nil hr
    have hh : ∀ y z, ValText fp t (dflt fp t) y z → ∃ c q, z = c :: q ∧ Head c := fun y z h => val_head h
    obtain ⟨d, z, hb', hd1, hd2⟩ := items_head hh hi
    have he : eatAll (b ++ r) = b ++ r := by rw [hb', List.cons_append, eatAll_cons hd1 hd2]
    have hunf := parse_arr (fp := fp) (t := t) ([] : List (t.Val D)) (s := '[' :: (g ++ b) ++ r) (r := g ++ (b ++ r))
      (by rw [List.cons_append, eatWs_cons (by unfold Blank; decide), List.append_assoc])
    refine hunf.trans ?_
    rw [eatAll_gap hg, he]
    exact items_ok (add := parse fp t .normal (dflt fp t)) hh (fun y z r hyz hr => by
        obtain ⟨rem, h1, h2⟩ := val_ok fp t (dflt fp t) y z hyz [] r blanks_nil hr
        refine ⟨rem, ?_, h2⟩
        rw [Rem, ht] at h1
        exact h1) hi _ [] r (Nat.lt_succ_self _)
  refine (parse_arr (fp := fp) (t := .arr t) ([] : List ((Ty.arr t).Val D)) (r := '[' :: (g ++ b) ++ r) (eatWs_cons (by unfold Blank; decide) _)).trans ?_
  rw [List.cons_append, eatAll_cons (by decide) (by decide), arrLoop, if_neg (by decide)]
  rw [List.cons_append] at h1
  rw [show dflt fp (.arr t) = ([] : List (t.Val D)) from rfl, h1]
  dsimp only
  rw [dropWhile_head (fun d hd => by cases hd; rfl), eat1_ne (by decide), eatAll_cons (by decide) (by decide), List.length_cons, arrLoop, if_pos rfl]
  rfl

example : parse fpI (.arr (.arr .int)) .normal [] "[[1], [2]]".toList = .ok (([[1]] : List (List Int)), "], [2]]".toList) := by
  exact by_dec (α := R (List (List Int) × List Char)) (by decide +kernel)

theorem digits_stop {ds r : List Char} (hd : ∀ c ∈ ds, '0' ≤ c ∧ c ≤ '9') (hr : ∀ c, r.head? = some c → isDigit c = false) :
    (ds ++ r).takeWhile isDigit = ds ∧ (ds ++ r).dropWhile isDigit = r := by
  have hp : ∀ c ∈ ds, isDigit c = true := fun c hc => (Json.digit_facts (hd c hc)).1
  rw [takeWhile_all hp, dropWhile_all hp, takeWhile_head hr, dropWhile_head hr, List.append_nil]
  exact ⟨rfl, rfl⟩

/-- C123 fails for digits that are separated by underscores: only the first group is read. -/
theorem C123_underscore_counterexample (fp : FP D) (ds r : List Char) (old : Int) (h1 : ds ≠ []) (h2 : ∀ c ∈ ds, '0' ≤ c ∧ c ≤ '9') (h3 : decVal ds < 2 ^ 63) :
    parse fp .int .normal old (ds ++ '_' :: r) = .ok ((decVal ds : Int), '_' :: r) := by
  have hs := digits_stop h2 (r := '_' :: r) (by rintro c hc; cases hc; decide)
  obtain ⟨d, ds', rfl⟩ : ∃ d ds', ds = d :: ds' := by
    cases ds with
    | nil => exact absurd rfl h1
    | cons d ds' => exact ⟨d, ds', rfl⟩
  have hd := h2 d (List.mem_cons_self ..)
  have f := Json.digit_facts hd
  have hb : ¬(d = '-') ∧ ¬(d = '+') := by
    constructor <;> (rintro rfl; revert hd; decide)
  have hsp : isSpace d = false := bareChar_space (Or.inr (Or.inr (Or.inl hd)))
  have hget : getInt (d :: ds' ++ '_' :: r) = some ((decVal (d :: ds') : Int), '_' :: r) := by
    rw [getInt, List.cons_append, List.dropWhile_cons, if_neg (by simp [hsp])]
    dsimp only
    rw [splitSign, if_neg hb.1, if_neg hb.2]
    dsimp only
    rw [← List.cons_append, hs.1, hs.2, if_neg (by simp), decNum_digits h2]
    have : ((decVal (d :: ds') : Nat) : Int) < 2 ^ 63 := by exact_mod_cast h3
    rw [if_neg (show ¬(false = true) by decide), if_neg (by omega), if_neg (by omega)]
  have hn := parseNumber_form (old := old) (b := []) (r := '_' :: r) ⟨d, ds', rfl, Or.inl (Or.inr (Or.inr (Or.inl hd)))⟩ blanks_nil (by rw [List.nil_append]; exact hget)
  exact hn

/-! ## C124: writing and reading an object -/

/-- C124: an object that `WriteTOML` writes is read back by `ParseTOML` as the same object, from any object whose arrays are empty. -/
theorem C124_round_trip_partial (fp : FP D) (fs : Fields) (hw : fs.Wf) (v old : fs.Val D) (h : GoodF fp fs v) (ho : FreshF fs old) :
    parseTOML fp fs old (writeTOML fp fs v) = .ok (v, []) :=
  write_read fp fs hw v old h ho

theorem bareKey_one (c : Char) (h : 'a' ≤ c ∧ c ≤ 'z') : BareKey [c] :=
  ⟨by simp, fun d hd => by rw [List.mem_singleton.1 hd]; exact Or.inl h⟩

example : exFields.Wf :=
  ⟨bareKey_one _ (by decide), by decide, trivial, bareKey_one _ (by decide), by decide, ⟨by decide, bareKey_one _ (by decide), by decide, trivial, trivial⟩,
    bareKey_one _ (by decide), by decide, ⟨by decide, bareKey_one _ (by decide), by decide, trivial, trivial⟩, trivial⟩

example : GoodF fpI exFields (exVal (-3) "x\n".toList [5, 6]) ∧ FreshF exFields (exVal 9 "y".toList []) := by
  have h : ∀ i : Int, i = -3 ∨ i = 5 ∨ i = 6 → Good fpI .int i := by
    rintro i (rfl | rfl | rfl)
    · exact ⟨show -2 ^ 63 ≤ (-3 : Int) by decide, show (-3 : Int) < 2 ^ 63 by decide⟩
    · exact ⟨show -2 ^ 63 ≤ (5 : Int) by decide, show (5 : Int) < 2 ^ 63 by decide⟩
    · exact ⟨show -2 ^ 63 ≤ (6 : Int) by decide, show (6 : Int) < 2 ^ 63 by decide⟩
  refine ⟨⟨h _ (Or.inl rfl), ⟨trivial, trivial⟩, ⟨?_, fun h => by cases h⟩, trivial⟩, ⟨trivial, ⟨trivial, trivial⟩, rfl, trivial⟩⟩
  intro x hx
  rcases List.mem_cons.1 hx with rfl | hx
  · exact ⟨h _ (Or.inr (Or.inl rfl)), trivial⟩
  · rw [List.mem_singleton.1 hx]; exact ⟨h _ (Or.inr (Or.inr rfl)), trivial⟩

example : writeTOML fpI exFields (exVal (-3) "x\n".toList [5, 6]) = "a = -3\nl = [{ n = 5 }, { n = 6 }]\n\n[o]\ns = \"x\\n\"\n\n".toList := by decide +kernel

/-- C124 fails for arrays of arrays. -/
theorem C124_nested_counterexample :
    parseTOML fpI (.cons ['a'] (.arr (.arr .int)) .nil) (([] : List (List Int)), ()) (writeTOML fpI (.cons ['a'] (.arr (.arr .int)) .nil) (([[1], [2]] : List (List Int)), ())) =
      .ok ((([[1]] : List (List Int)), ()), []) := by
  exact by_dec (α := R ((List (List Int) × Unit) × List Char)) (by decide +kernel)

/-- C124 fails for names that are not bare keys: they are written without quotes. -/
theorem C124_key_counterexample :
    parseTOML fpI (.cons ['a', '=', 'b'] .bool .nil) (false, ()) (writeTOML fpI (.cons ['a', '=', 'b'] .bool .nil) (true, ())) = .ok ((false, ()), []) := by
  exact by_dec (α := R ((Bool × Unit) × List Char)) (by decide +kernel)

/-! ## C125: every text -/

/-- C125: reading comes to an end, whatever the text, if it contains no NUL. -/
theorem C125_terminates_partial (fp : FP D) (hp : fp.Forward) (fs : Fields) (v : fs.Val D) (s : List Char) (h0 : '\x00' ∉ s) : parseTOML fp fs v s ≠ .error .hang :=
  parseTOML_ends hp fs v s h0

example : fpI.Forward ∧ '\x00' ∉ "a = [1, [{ = \"\"\"".toList := ⟨fpI_forward, by decide⟩

/-- C125 fails for a text that has a NUL where a name is expected: the loop over the lines of a section never ends, however often it is run. -/
theorem C125_hang_counterexample {V : Type} (f : Key → V → List Char → R (V × List Char)) (v : V) (s : List Char) : ∀ n, pairsLoop f n v ('\x00' :: s) = .error .hang
  | 0 => rfl
  | n + 1 => by
    have hk : parseString false '=' '\x00' ('\x00' :: s) = ([], '\x00' :: s) := by
      rw [parseString, eatWs_cons (by unfold Blank; decide)]
      rfl
    rw [pairsLoop, if_neg (by decide), keyVal, hk]
    dsimp only
    rw [eatWs_cons (by unfold Blank; decide)]
    dsimp only
    rw [if_neg (by decide)]
    dsimp only
    rw [if_neg (by decide), eatAll_cons (by decide) (by decide)]
    exact C125_hang_counterexample f v s n

theorem C125_hang_document_counterexample (fp : FP D) (fs : Fields) (v : fs.Val D) (s : List Char) : parseTOML fp fs v ('\x00' :: s) = .error .hang := by
  rw [parseTOML, pairs, eatAll_cons (by decide) (by decide), C125_hang_counterexample]

/-- C125 fails for a number that is missing at the end of the text: it is read from an object that was never given a value. -/
theorem C125_number_counterexample (fp : FP D) (old : Int) (b : List Char) (h : ∀ c ∈ b, isSpace c = true) (hb : ∀ c, b.head? = some c → ¬NL c) : parse fp .int .normal old b = .error .ub := by
  have hg : getInt b = none := by
    have := dropWhile_all (b := []) h
    rw [List.append_nil] at this
    rw [getInt, this]
    rfl
  change parseNumber getInt old b = _
  rw [parseNumber.eq_def, hg]
  cases b with
  | nil => rfl
  | cons c b =>
    have h1 : ¬((isNl c || c == ',') = true) := by
      have hc := h c (List.mem_cons_self ..)
      rw [isNl_false (hb c rfl), Bool.false_or, beq_iff_eq]
      rintro rfl
      exact absurd hc (by decide)
    have h2 : c ≠ '"' := by
      rintro rfl
      exact absurd (h _ (List.mem_cons_self ..)) (by decide)
    dsimp only
    rw [if_neg h1, if_neg h2]
    rfl

/-- C125 fails for a header that goes through an array without elements. -/
theorem C125_header_counterexample (fp : FP D) (t : Ty) (elem : Bool) (s : List Char) : parse fp (.arr t) (stOf elem) [] ('.' :: s) = .error .ub := by
  change parseArray _ _ _ _ _ = _
  rw [parseArray, if_pos ⟨by cases elem <;> decide, rfl⟩]
  rfl

example : (parseTOML fpI exFields (exVal 1 [] []) "[l.n]\n".toList).toBool = false := by decide +kernel

mutual
/-- Types without numbers and arrays. -/
def Ty.Plain : Ty → Prop
  | .str => True
  | .bool => True
  | .obj fs => fs.Plain
  | _ => False

def Fields.Plain : Fields → Prop
  | .nil => True
  | .cons _ t fs => t.Plain ∧ fs.Plain
end

theorem keyVal_defined {V : Type} {f : Key → V → List Char → R (V × List Char)} (hf : ∀ k v s, f k v s ≠ .error .ub) (v : V) (s : List Char) : keyVal f v s ≠ .error .ub := by
  rw [keyVal]
  cases eatWs (parseString false '=' '\x00' s).2 with
  | nil => simp
  | cons c q =>
    dsimp only
    split
    · cases hx : f (cstr (parseString false '=' '\x00' s).1) v q with
      | error e => exact fun h => hf _ v q (by rw [hx]; cases h; rfl)
      | ok x => simp
    · simp

theorem tblLoop_defined {V : Type} {f : Key → V → List Char → R (V × List Char)} (hf : ∀ k v s, f k v s ≠ .error .ub) : ∀ n v s, tblLoop f n v s ≠ .error .ub
  | 0, _, _ => by rw [tblLoop]; simp
  | n + 1, v, [] => by rw [tblLoop]; simp
  | n + 1, v, c :: s => by
    rw [tblLoop]
    split
    · simp
    · split
      · simp
      · cases hx : keyVal f v (c :: s) with
        | error e => exact fun h => keyVal_defined hf v (c :: s) (by rw [hx]; cases h; rfl)
        | ok x => exact tblLoop_defined hf n _ _

theorem pairsLoop_defined {V : Type} {f : Key → V → List Char → R (V × List Char)} (hf : ∀ k v s, f k v s ≠ .error .ub) : ∀ n v s, pairsLoop f n v s ≠ .error .ub
  | 0, _, _ => by rw [pairsLoop]; simp
  | n + 1, v, [] => by rw [pairsLoop]; simp
  | n + 1, v, c :: s => by
    rw [pairsLoop]
    split
    · simp
    · cases hx : keyVal f v (c :: s) with
      | error e => exact fun h => keyVal_defined hf v (c :: s) (by rw [hx]; cases h; rfl)
      | ok x => exact pairsLoop_defined hf n _ _

theorem parseMany_defined {V : Type} {f : State → Key → V → List Char → R (V × List Char)} (hf : ∀ st k v s, f st k v s ≠ .error .ub) (st : State) (v : V) (s : List Char) :
    parseMany f st v s ≠ .error .ub := by
  rw [parseMany.eq_def]
  cases st with
  | normal =>
    dsimp only
    cases eatWs s with
    | nil => simp
    | cons c q =>
      dsimp only
      split
      · exact tblLoop_defined (hf .normal) _ _ _
      · simp
  | table =>
    cases s with
    | nil => simp
    | cons c q =>
      dsimp only
      split
      · exact hf _ _ _ _
      · split
        · exact pairsLoop_defined (hf .normal) _ _ _
        · simp
  | inline =>
    cases s with
    | nil => simp
    | cons c q =>
      dsimp only
      split
      · exact hf _ _ _ _
      · split
        · exact pairsLoop_defined (hf .normal) _ _ _
        · simp

mutual
theorem parse_defined (fp : FP D) : ∀ (t : Ty), t.Plain → ∀ (st : State) (v : t.Val D) (s : List Char), parse fp t st v s ≠ .error .ub
  | .str, _, _, _, _ => fun h => by cases h
  | .bool, _, _, _, _ => fun h => by cases h
  | .int, h, _, _, _ => h.elim
  | .dbl, h, _, _, _ => h.elim
  | .arr _, h, _, _, _ => h.elim
  | .obj fs, h, st, v, s => parseMany_defined (fun st k v s => find_defined fp fs h st k v s) st v s

theorem find_defined (fp : FP D) : ∀ (fs : Fields), fs.Plain → ∀ (st : State) (k : Key) (v : fs.Val D) (s : List Char), find fp fs st k v s ≠ .error .ub
  | .nil, _, _, _, _, _ => fun h => by cases h
  | .cons k t fs, h, st, key, v, s => by
    rw [find]
    split
    · cases hx : parse fp t st v.1 s with
      | error e => exact fun h' => parse_defined fp t h.1 st v.1 s (by rw [hx]; cases h'; rfl)
      | ok x => simp
    · cases hx : find fp fs st key v.2 s with
      | error e => exact fun h' => find_defined fp fs h.2 st key v.2 s (by rw [hx]; cases h'; rfl)
      | ok x => simp
end

theorem header_defined (fp : FP D) (fs : Fields) (h : fs.Plain) (st : State) (v : fs.Val D) (s : List Char) : header fp fs st v s ≠ .error .ub := by
  rw [header]
  cases eatWs (parseString false ']' '.' s).2 with
  | nil => simp
  | cons c q =>
    dsimp only
    split
    · exact find_defined fp fs h _ _ _ _
    · simp

theorem rootLoop_defined (fp : FP D) (fs : Fields) (h : fs.Plain) : ∀ n v s, rootLoop fp fs n v s ≠ .error .ub
  | 0, _, _ => by rw [rootLoop]; simp
  | n + 1, v, [] => by rw [rootLoop]; simp
  | n + 1, v, c :: s => by
    rw [rootLoop]
    split
    · simp
    · by_cases hd : s.head? = some '['
      · rw [if_pos hd]
        cases hx : header fp fs .inline v (s.drop 1) with
        | error e => exact fun h' => header_defined fp fs h _ v _ (by rw [hx]; cases h'; rfl)
        | ok x => exact rootLoop_defined fp fs h n _ _
      · rw [if_neg hd]
        cases hx : header fp fs .table v s with
        | error e => exact fun h' => header_defined fp fs h _ v _ (by rw [hx]; cases h'; rfl)
        | ok x => exact rootLoop_defined fp fs h n _ _

/-- C125: an object of strings, booleans and such objects gets a value from every text without NUL. -/
theorem C125_defined_partial (fp : FP D) (hp : fp.Forward) (fs : Fields) (h : fs.Plain) (v : fs.Val D) (s : List Char) (h0 : '\x00' ∉ s) : ∃ v' r, parseTOML fp fs v s = .ok (v', r) := by
  have h1 := parseTOML_ends hp fs v s h0
  have h2 : parseTOML fp fs v s ≠ .error .ub := by
    rw [parseTOML]
    cases hx : pairs (fun k v s => find fp fs .normal k v s) v s with
    | error e => exact fun h' => pairsLoop_defined (fun k v s => find_defined fp fs h .normal k v s) _ v _ (by rw [pairs] at hx; rw [hx]; cases h'; rfl)
    | ok x => exact rootLoop_defined fp fs h _ _ _
  cases hx : parseTOML fp fs v s with
  | error e =>
    cases e
    · exact absurd hx h1
    · exact absurd hx h2
  | ok x => exact ⟨x.1, x.2, rfl⟩

example : (Fields.cons ['a'] .str (.cons ['b'] (.obj (.cons ['c'] .bool .nil)) .nil)).Plain ∧ '\x00' ∉ "a = [b.c]]]\n[b.c.c] = {".toList :=
  ⟨⟨trivial, ⟨trivial, trivial⟩, trivial⟩, by decide⟩

end Verif.Toml
