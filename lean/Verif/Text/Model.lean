import Verif.Common.Mem

/-!
# Strings: trimming, splitting, command lines, formats

Models parts of `/repo/include/bss-util/bss_util.h` and `/repo/include/bss-util/Str.h`. A character is the integer value of its type, so that a byte above 127 in a `char` is
negative; memory is a list of characters and a pointer an index into it; an access outside of the memory is undefined behaviour (`none`).
-/

namespace Verif.Text

/-! ## Trimming -/

/-- `for(; *str > 0 && *str < 33; ++str);`: `strltrim`, `bss_util.h:197-203`, and `_ltrim`, `Str.h:310`. -/
def ltrim (m : List Int) (p : Nat) : Option Nat :=
  if h : p < m.length then (if 0 < m[p] ∧ m[p] < 33 then ltrim m (p + 1) else some p) else none
termination_by m.length - p

/-- `strlen`. -/
def len (m : List Int) (p : Nat) : Option Nat :=
  if h : p < m.length then (if m[p] = 0 then some 0 else (len m (p + 1)).map (· + 1)) else none
termination_by m.length - p

/-- `for(; inter > str && *inter < 33; --inter);`, `bss_util.h:212` and `Str.h:311`: the distance of `inter` from `str` afterwards. -/
def back (m : List Int) (str : Nat) : Nat → Option Nat
  | 0 => some 0
  | n + 1 => (rd m (str + (n + 1))).bind fun c => if c < 33 then back m str n else some (n + 1)

/-- `_rtrim`, `Str.h:311`: the memory afterwards, for a string of the given size. -/
def rtrimN (m : List Int) (str size : Nat) : Option (List Int) :=
  (back m str size).bind fun n => wr m (str + n + 1) 0

/-- `strrtrim`, `bss_util.h:206-215`. -/
def strrtrim (m : List Int) (str : Nat) : Option (List Int) := (len m str).bind (rtrimN m str)

/-- `strtrim`, `bss_util.h:218-222`: the memory afterwards and the pointer returned. -/
def strtrim (m : List Int) (str : Nat) : Option (List Int × Nat) :=
  (ltrim m str).bind fun p => (strrtrim m p).map fun m => (m, p)

/-- The characters at a pointer up to the terminator, as `std::basic_string` copies them. -/
def chars (m : List Int) (p : Nat) : Option (List Int) := (len m p).map fun n => (m.drop p).take n

/-- `StrT::Trim`, `Str.h:180`. The string is its characters; its memory ends with the terminator behind them. -/
def trim (s : List Int) : Option (List Int) :=
  (rtrimN (s ++ [0]) 0 s.length).bind fun m => (ltrim m 0).bind fun p => chars m p

/-! ## Counting, replacing, removing -/

/-- `strreplace`, `bss_util.h:114-126`, for a pointer that is not null: the memory afterwards. -/
def strreplace (find repl : Int) (m : List Int) (p : Nat) : Option (List Int) :=
  if h : p < m.length then (if m[p] = 0 then some m else strreplace find repl (if m[p] = find then m.set p repl else m) (p + 1)) else none
termination_by m.length - p
decreasing_by split <;> (try rw [List.length_set]) <;> omega

/-- `strccount`, `bss_util.h:134-141`. -/
def strccount (c : Int) (m : List Int) (p : Nat) : Option Nat :=
  if h : p < m.length then
    (if m[p] = 0 then some 0 else (strccount c m (p + 1)).map fun n => if m[p] = c then n + 1 else n)
  else none
termination_by m.length - p

/-- `for(size_t i = 0; (i < length) && ((*string) != 0); ++i) if(string[i] == c) ++ret;` from `i` on, with `k` iterations left: `strccount`, `bss_util.h:144-152`. -/
def countN (c : Int) (m : List Int) (p i : Nat) : Nat → Option Nat
  | 0 => some 0
  | k + 1 => (rd m p).bind fun x =>
    if x = 0 then some 0
    else (rd m (p + i)).bind fun y => (countN c m p (i + 1) k).map fun n => if y = c then n + 1 else n

/-- `strccount` with a length, `bss_util.h:144-152`. -/
def strccountN (c : Int) (m : List Int) (p length : Nat) : Option Nat := countN c m p 0 length

/-- `StrT::ReplaceChar`, `Str.h:181-191`: the loop over the characters, `i` being the next. -/
def replaceFrom (search repl : Int) (s : List Int) (i : Nat) : List Int :=
  if h : i < s.length then replaceFrom search repl (if s[i] = search then s.set i repl else s) (i + 1) else s
termination_by s.length - i
decreasing_by split <;> (try rw [List.length_set]) <;> omega

/-- `StrT::ReplaceChar`, `Str.h:181-191`. -/
def replaceChar (search repl : Int) (s : List Int) : List Int := replaceFrom search repl s 0

/-- The loop of `StripChar`, `Str.h:248-250`: the memory of `r` and `i`. -/
def stripLoop (c : Int) (text : List Int) (p : Nat) (r : List Int) (i : Nat) : Option (List Int × Nat) :=
  if h : p < text.length then
    (if text[p] = 0 then some (r, i)
     else if text[p] ≠ c then (wr r i text[p]).bind fun r => stripLoop c text (p + 1) r (i + 1)
     else stripLoop c text (p + 1) r i)
  else none
termination_by text.length - p

/-- `StrT::StripChar`, `Str.h:242-255`. `resize` fills with zeros, and the terminator follows. -/
def stripChar (c : Int) (text : List Int) (p : Nat) : Option (List Int) :=
  (len text p).bind fun n => (stripLoop c text p (List.replicate (n + 2) 0) 0).bind fun (r, i) =>
    (wr r i 0).bind fun r => chars r 0

/-! ## Splitting -/

/-- `strtok_r` of the C library on the rest of a string: the token and the rest. -/
def strtok (delim : Int → Bool) (s : List Int) : Option (List Int × List Int) :=
  match s.dropWhile delim with
  | [] => none
  | c :: r => some ((c :: r).takeWhile fun c => !delim c, ((c :: r).dropWhile fun c => !delim c).drop 1)

theorem strtok_shorter {delim : Int → Bool} {s t r : List Int} (h : strtok delim s = some (t, r)) : r.length < s.length := by
  unfold strtok at h
  have h0 : (s.dropWhile delim).length ≤ s.length := (List.dropWhile_suffix delim).length_le
  cases hs : s.dropWhile delim with
  | nil => rw [hs] at h; cases h
  | cons c l =>
    rw [hs] at h
    have hc : delim c = false := by
      have := List.head?_dropWhile_not delim s
      rw [hs] at this
      simpa using this
    simp only [Option.some.injEq, Prod.mk.injEq] at h
    obtain ⟨-, rfl⟩ := h
    have h1 : (l.dropWhile fun c => !delim c).length ≤ l.length := (List.dropWhile_suffix _).length_le
    rw [hs] at h0
    simp only [List.length_cons, List.length_drop, List.dropWhile_cons, hc, Bool.not_false, if_true] at h0 ⊢
    omega

/-- `StrT::ParseTokens`, `Str.h:226-239`, with the tokens themselves instead of what the parser makes of them; `vec.size()` is not modelled. -/
def tokens (delim : Int → Bool) (s : List Int) : List (List Int) :=
  match h : strtok delim s with
  | none => []
  | some (t, r) => t :: tokens delim r
termination_by s.length
decreasing_by exact strtok_shorter h

/-- `ExplodeNull`, `Str.h:209-219`, for a pointer that is not null. -/
def explodeNull (m : List Int) (p : Nat) : Option (List (List Int)) :=
  if h : p < m.length then
    (if m[p] = 0 then some []
     else (len m p).bind fun n => (explodeNull m (p + n + 1)).map fun r => (m.drop p).take n :: r)
  else none
termination_by m.length - p

/-- `Explode`, `Str.h:193-208`: what is appended to the vector. `copy(text)` has the characters up to the terminator. -/
def explode (delim : Int) (m : List Int) (p : Nat) : Option (List (List Int)) :=
  if delim = 0 then explodeNull m p else (chars m p).map fun s => tokens (fun c => c == delim) s

/-- `strchr`, with the pointer as a result: null (`some none`) if the character is not there. -/
def strchr (c : Int) (m : List Int) (p : Nat) : Option (Option Nat) :=
  if h : p < m.length then (if m[p] = c then some (some p) else if m[p] = 0 then some none else strchr c m (p + 1)) else none
termination_by m.length - p

/-- The loop of `StrT(uint16_t index, const CHAR* text, const CHAR delim)`, `Str.h:133-137`: `text` afterwards. -/
def chunkSkip (delim : Int) (m : List Int) : Nat → Nat → Option (Option Nat)
  | 0, p => some (some p)
  | i + 1, p => (strchr delim m p).bind fun r =>
    match r with
    | none => some none
    | some q => chunkSkip delim m i (q + 1)

/-- `StrT(uint16_t index, const CHAR* text, const CHAR delim)`, `Str.h:131-149`, for a text that is not null. -/
def chunk (index : Nat) (delim : Int) (m : List Int) (p : Nat) : Option (List Int) :=
  (chunkSkip delim m index p).bind fun r =>
    match r with
    | none => some []
    | some p => (strchr delim m p).bind fun e =>
      match e with
      | some e => some ((m.drop p).take (e - p))
      | none => (len m p).map fun n => (m.drop p).take n

/-- `STR_CT<char32_t>::STOK`, `Str.h:84-95`: the memory, `*context` and the token. -/
def stok32 (delim : Int) (m : List Int) (str : Option Nat) (context : Nat) : Option (List Int × Nat × Nat) :=
  (match str with
    | some s => some (m, s)
    | none => (wr m context delim).map fun m => (m, context)).bind fun (m, ctx) =>
  let rec find (m : List Int) (p : Nat) : Option Nat :=
    if h : p < m.length then (if m[p] ≠ 0 ∧ m[p] ≠ delim then find m (p + 1) else some p) else none
  termination_by m.length - p
  (find m ctx).bind fun e => (wr m e 0).map fun m => (m, e, ctx)

/-- `StrT<char32_t>::ParseTokens` with at most the given number of calls of `STOK`: `some none` means that they were not enough. -/
def tokens32 (delim : Int) : Nat → List Int → Option Nat → Nat → Option (Option (List (List Int)))
  | 0, _, _, _ => some none
  | k + 1, m, str, ctx => (stok32 delim m str ctx).bind fun (m, ctx, t) =>
    (chars m t).bind fun w => (tokens32 delim k m none ctx).map fun r => r.map (w :: ·)

/-! ## Command lines -/

/-- `isspace` in the C locale; bytes above 127, for which it is undefined on negative values, are no space here. -/
def isSpace (c : Int) : Bool := c == 32 || (9 ≤ c && c ≤ 13)

/-- `while(*++cmdline != 0 && cmdline[1] != 0 && (*cmdline != '"' || !isspace(cmdline[1])));`, `bss_util.h:236`: the position afterwards. -/
def quoted (m : List Int) (p : Nat) : Option Nat :=
  if h : p + 1 < m.length then
    (if m[p + 1] = 0 then some (p + 1)
     else (rd m (p + 2)).bind fun n =>
       if n ≠ 0 ∧ (m[p + 1] ≠ 34 ∨ ¬ isSpace n) then quoted m (p + 1) else some (p + 1))
  else none
termination_by m.length - p

/-- `while(*++cmdline != 0 && !isspace(*cmdline));`, `bss_util.h:242`. -/
def plain (m : List Int) (p : Nat) : Option Nat :=
  if h : p + 1 < m.length then (if m[p + 1] ≠ 0 ∧ ¬ isSpace m[p + 1] then plain m (p + 1) else some (p + 1)) else none
termination_by m.length - p

theorem quoted_gt {m : List Int} {p q : Nat} (h : quoted m p = some q) : p < q := by
  fun_induction quoted m p with
  | case1 => cases h; omega
  | case2 p hp h0 ih =>
    cases hn : rd m (p + 2) with
    | none => rw [hn] at h; cases h
    | some n =>
      rw [hn] at h
      simp only [Option.bind_some] at h
      split at h
      · have := ih h; omega
      · cases h; omega
  | case3 => cases h

theorem plain_gt {m : List Int} {p q : Nat} (h : plain m p = some q) : p < q := by
  fun_induction plain m p with
  | case1 p hp hc ih => have := ih h; omega
  | case2 => cases h; omega
  | case3 => cases h

/-- `ToArgV`, `bss_util.h:224-250`, from `cmdline` on: the memory afterwards and the positions stored in `argv`; `write` says whether `argv` is not null. -/
def argv (write : Bool) (m : List Int) (p : Nat) : Option (List Int × List Nat) :=
  if hp : p < m.length then
    if m[p] = 0 then some (m, [])
    else if ¬ isSpace m[p] then
      match hq : (if m[p] = 34 then quoted m p else plain m p) with
      | none => none
      | some q =>
        (rd m q).bind fun c =>
          if c = 0 then some (m, [if m[p] = 34 then p + 1 else p])
          else (argv write (if write then m.set q 0 else m) (q + 1)).map fun (m', r) => (m', (if m[p] = 34 then p + 1 else p) :: r)
    else argv write m (p + 1)
  else none
termination_by m.length - p
decreasing_by
  · have : p < q := by
      split at hq
      · exact quoted_gt hq
      · exact plain_gt hq
    split <;> simp <;> omega
  · omega

/-- `ToArgV`, `bss_util.h:224-250`: the memory, the pointers in `argv` and the number returned. -/
def toArgV (write : Bool) (m : List Int) (p : Nat) : Option (List Int × List Nat × Nat) :=
  (argv write m p).map fun (m, r) => (m, r, r.length)

/-- The loop of `ProcessCmdArgs`, `bss_util.h:259-270`: the calls of `fn`, each with its arguments; `cur` is the current group. -/
def cmdLoop (divider : Int) (cur : List (List Int)) : List (List Int) → List (List (List Int))
  | [] => [cur]
  | a :: rest => if a.head? = some divider then cur :: cmdLoop divider [a] rest else cmdLoop divider (cur ++ [a]) rest

/-- `ProcessCmdArgs`, `bss_util.h:253-271`: arguments are strings here, not pointers; an empty one starts with the terminator. -/
def processCmdArgs (divider : Int) : List (List Int) → List (List (List Int))
  | [] => []
  | a :: rest => cmdLoop divider [a] rest

/-! ## Formats -/

/-- `c >= '0' && c <= '9'`. -/
def digit (c : Int) : Bool := 48 ≤ c && c ≤ 57

/-- Part of an output stream: text that was written, or a call of `FN` for an argument. -/
inductive Out
  | text (t : List Int)
  | arg (n : Int)
  deriving DecidableEq, Repr

/-- The condition of `bss_util.h:294`, with reads in the order of evaluation: which placeholder starts at a position, if one does. -/
def hole (m : List Int) (p : Nat) : Option (Option (Int × Nat)) :=
  (rd m p).bind fun c0 => if c0 ≠ 123 then some none else
  (rd m (p + 1)).bind fun c1 => if ¬ digit c1 then some none else
  (rd m (p + 2)).bind fun c2 => if c2 = 125 then some (some (c1 - 48, p + 3)) else if ¬ digit c2 then some none else
  (rd m (p + 3)).bind fun c3 => if c3 = 125 then some (some (c2 - 48 + (c1 - 48) * 10, p + 4)) else some none

/-- `if(format - pos > 0) o.write(pos, format - pos);`. -/
def flush (m : List Int) (pos p : Nat) : List Out := if pos < p then [.text ((m.drop pos).take (p - pos))] else []

theorem hole_gt {m : List Int} {p q : Nat} {n : Int} (h : hole m p = some (some (n, q))) : p < q := by
  simp only [hole, Option.bind_eq_some_iff] at h
  obtain ⟨c0, -, h⟩ := h
  split at h
  · cases h
  · obtain ⟨c1, -, h⟩ := Option.bind_eq_some_iff.mp h
    split at h
    · cases h
    · obtain ⟨c2, -, h⟩ := Option.bind_eq_some_iff.mp h
      split at h
      · cases h; omega
      · split at h
        · cases h
        · obtain ⟨c3, -, h⟩ := Option.bind_eq_some_iff.mp h
          split at h
          · cases h; omega
          · cases h

/-- `__safeFormat::F`, `bss_util.h:289-318`, from `format` on. -/
def format (m : List Int) (pos p : Nat) : Option (List Out) :=
  if hp : p < m.length then
    if m[p] = 0 then some (flush m pos p)
    else match hh : hole m p with
      | none => none
      | some none => format m pos (p + 1)
      | some (some (n, q)) => (format m q q).map fun r => flush m pos p ++ .arg n :: r
  else none
termination_by m.length - p
decreasing_by
  · omega
  · have := hole_gt hh; omega

/-- `__safeFormat::helper`, `bss_util.h:277-286`, with `N` as given by `SafeFormat`: which argument is written. `sizeof...(Args) == (N - n)` compares as `size_t`,
which for numbers below `2^63` is the comparison of integers. -/
def pick {α : Type} (N n : Int) : List α → Option α
  | [] => none
  | a :: rest => if (rest.length : Int) = N - n then some a else pick N n rest

/-- The text of a string literal. -/
def lit (s : String) : List Int := s.toList.map fun c => (c.toNat : Int)

/-- `helper<N>`, `bss_util.h:285-286`. -/
def invalid (n : Int) : List Int := lit "{INVALID PARAMETER " ++ lit (toString n) ++ lit "}"

/-- `SafeFormat`, `bss_util.h:322-326`: what is written; an argument is the text that `operator<<` writes for it. -/
def safeFormat (args : List (List Int)) (m : List Int) (p : Nat) : Option (List Int) :=
  (format m p p).map fun o => o.flatMap fun
    | .text t => t
    | .arg n => (pick ((args.length : Int) - 1) n args).getD (invalid n)

end Verif.Text
