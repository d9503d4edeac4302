/-!
# Formatting (C181), text written through a pointer (C182) and concatenation (C183) of strings, `/repo/include/bss-util/Str.h`

The functions of `std::basic_string` are modelled by the standard: a string has a memory of `capacity()` characters, followed by room for a terminator, of which the first `size()` are its characters and the next is zero.
-/

namespace Verif.StrBuild

/-! ## Code -/

/-- A string: its memory with the place of the last terminator, and its size. -/
structure S where
  mem : List Nat
  size : Nat
deriving DecidableEq, Repr

/-- The characters. -/
def S.text (s : S) : List Nat := s.mem.take s.size

/-- What `basic_string` guarantees. -/
def S.Ok (s : S) : Prop := s.size < s.mem.length ∧ s.mem[s.size]? = some 0

/-- `strlen`: where the first zero is. `none` if there is none. -/
def strlen : List Nat → Option Nat
  | [] => none
  | c :: m => if c = 0 then some 0 else (strlen m).map (· + 1)

/-- `basic_string::resize`; `junk` is what is behind the terminator in new memory. -/
def resize (s : S) (n : Nat) (junk : List Nat) : S :=
  if n ≤ s.size then ⟨s.mem.set n 0, n⟩
  else if n < s.mem.length then ⟨(s.mem.take s.size ++ List.replicate (n - s.size) 0 ++ s.mem.drop n).set n 0, n⟩
  else ⟨s.mem.take s.size ++ List.replicate (n - s.size) 0 ++ 0 :: junk, n⟩

/-- Writing characters through `UnsafeString()`, `Str.h:176`, at an index. `none` if it leaves the memory. -/
def poke (s : S) (i : Nat) (l : List Nat) : Option S :=
  if i + l.length ≤ s.mem.length then some ⟨s.mem.take i ++ l ++ s.mem.drop (i + l.length), s.size⟩ else none

/-- `RecalcSize`, `Str.h:179`. -/
def recalcSize (s : S) (junk : List Nat) : Option S := (strlen s.mem).map fun n => resize s n junk

/-- `StrT()`, `Str.h:117`; `room` is the memory of a string without allocation behind its terminator. -/
def empty (room : List Nat) : S := ⟨0 :: room, 0⟩

/-- `vsnprintf`: the memory afterwards, for a format and arguments that give `out`. -/
def vsnprintf (mem : List Nat) (size : Nat) (out : List Nat) : List Nat :=
  if size = 0 then mem else
    let w := out.take (size - 1) ++ [0]
    w ++ mem.drop w.length

/-- `StrT::StrTF`, `Str.h:257-277`, for a format that is not null and without errors of `vsnprintf`. `VPCF` gives the length of the output. -/
def strTF (out room junk junk' : List Nat) : Option S :=
  let r := resize (empty room) (out.length + 1) junk
  recalcSize ⟨vsnprintf r.mem (r.mem.length - 1) out, r.size⟩ junk'

/-- A pointer given to a string: null, to one of its own characters, or to memory elsewhere. -/
inductive Ptr where
  | null
  | own (i : Nat)
  | other (m : List Nat)
deriving DecidableEq, Repr

/-- The characters up to the terminator. -/
def cstr (m : List Nat) : List Nat := m.takeWhile (· ≠ 0)

/-- `basic_string::operator+=(const CHAR*)` and `operator=(const CHAR*)`: the text that they take, also from the string itself. -/
def Ptr.get (s : List Nat) : Ptr → List Nat
  | .null => []
  | .own i => cstr (s.drop i)
  | .other m => cstr m

/-- `operator+=(const CHAR*)`, `Str.h:173`. -/
def appendPtr (s : List Nat) (p : Ptr) : List Nat :=
  if p ≠ .null ∧ p ≠ .own 0 then s ++ p.get s else s

/-- `operator=(const CHAR*)`, `Str.h:165`. -/
def assignPtr (s : List Nat) (p : Ptr) : List Nat := if p ≠ .null then p.get s else []

/-- `basic_string::insert(0, _)`. -/
def insert (s : List Nat) (pos : Nat) (t : List Nat) : List Nat := s.take pos ++ t ++ s.drop pos

/-- `operator+(const StrT&)`, `Str.h:154`, `156`: a copy and `operator+=`. -/
def plus (s t : List Nat) : List Nat := s ++ t

/-- `operator+(StrT&&)`, `Str.h:155`, `157`. -/
def plusMove (s t : List Nat) : List Nat := insert t 0 s

/-- `operator+(const CHAR*)`, `Str.h:158`: the pointer is never that of the copy, but may be that of the string. -/
def plusPtr (s : List Nat) (p : Ptr) : List Nat := appendPtr s (.other (p.get s ++ [0]))

/-- `operator+(const _Elem*, const StrT&)`, `Str.h:345-349`. -/
def ptrPlus (p : List Nat) (s : List Nat) : List Nat := appendPtr [] (.other p) ++ s

/-- `operator+(_Elem, const StrT&)`, `Str.h:350-354`. -/
def charPlus (c : Nat) (s : List Nat) : List Nat := ([] ++ [c]) ++ s

/-- `operator+(StrT&&, StrT&&)`, `Str.h:380-391`, with the capacities of the two. The subtractions are those of `size_t` and never negative. -/
def plusBoth (s t : List Nat) (capS capT : Nat) : List Nat :=
  if t.length ≤ capS - s.length ∨ capT - t.length < s.length then s ++ t else insert t 0 s

/-! ## Lemmas -/

theorem strlen_append {l : List Nat} (h : 0 ∉ l) (m : List Nat) : strlen (l ++ 0 :: m) = some l.length := by
  induction l with
  | nil => rfl
  | cons a l ih =>
    rw [List.mem_cons] at h
    rw [List.cons_append, strlen, if_neg (fun e => h (.inl e.symm)), ih (fun e => h (.inr e))]
    rfl

theorem strlen_some {m : List Nat} {n : Nat} (h : strlen m = some n) : n < m.length ∧ m[n]? = some 0 ∧ 0 ∉ m.take n := by
  induction m generalizing n with
  | nil => cases h
  | cons a m ih =>
    rw [strlen] at h
    split at h
    · next e => injection h with h; subst h; subst e; simp
    · next e =>
      rw [Option.map_eq_some_iff] at h
      obtain ⟨k, hk, rfl⟩ := h
      obtain ⟨h1, h2, h3⟩ := ih hk
      refine ⟨by simp; omega, by simpa using h2, ?_⟩
      rw [List.take_succ_cons, List.mem_cons]
      rintro (h | h)
      · exact e h.symm
      · exact h3 h

theorem cstr_append {l : List Nat} (h : 0 ∉ l) (m : List Nat) : cstr (l ++ 0 :: m) = l := by
  unfold cstr
  induction l with
  | nil => simp
  | cons a l ih =>
    rw [List.mem_cons] at h
    rw [List.cons_append, List.takeWhile_cons_of_pos, ih (fun e => h (.inr e))]
    simp only [ne_eq, decide_eq_true_eq]
    exact fun e => h (.inl e.symm)

theorem cstr_self {l : List Nat} (h : 0 ∉ l) : cstr l = l := by
  unfold cstr
  induction l with
  | nil => rfl
  | cons a l ih =>
    rw [List.mem_cons] at h
    rw [List.takeWhile_cons_of_pos, ih (fun e => h (.inr e))]
    simp only [ne_eq, decide_eq_true_eq]
    exact fun e => h (.inl e.symm)

theorem take_set_self (l : List Nat) (n a : Nat) : (l.set n a).take n = l.take n := by
  rw [List.take_set, List.set_eq_of_length_le (by simp; omega)]

theorem resize_text (s : S) (n : Nat) (junk : List Nat) (h : s.size < s.mem.length) : (resize s n junk).text = s.text.take n ++ List.replicate (n - s.size) 0 := by
  unfold resize S.text
  split
  · next h1 =>
    dsimp only
    rw [take_set_self, List.take_take, Nat.min_eq_left h1, Nat.sub_eq_zero_of_le h1, List.replicate_zero, List.append_nil]
  · next h1 =>
    have e : s.mem.take s.size ++ List.replicate (n - s.size) 0 = (s.mem.take s.size).take n ++ List.replicate (n - s.size) 0 := by
      rw [List.take_take, Nat.min_eq_right (by omega)]
    have l : (s.mem.take s.size ++ List.replicate (n - s.size) 0).length = n := by simp; omega
    split
    · dsimp only
      rw [take_set_self, List.take_append_of_le_length (by omega), List.take_of_length_le (by omega), e]
    · dsimp only
      rw [List.take_append_of_le_length (by omega), List.take_of_length_le (by omega), e]

theorem resize_ok (s : S) (n : Nat) (junk : List Nat) (h : s.size < s.mem.length) : (resize s n junk).Ok := by
  unfold resize S.Ok
  split
  · next h1 =>
    dsimp only
    rw [List.length_set]
    exact ⟨by omega, by rw [List.getElem?_set_self (by omega)]⟩
  · next h1 =>
    split
    · next h2 =>
      dsimp only
      have l : (s.mem.take s.size ++ List.replicate (n - s.size) 0 ++ s.mem.drop n).length = s.mem.length := by simp; omega
      rw [List.length_set, l]
      exact ⟨h2, by rw [List.getElem?_set_self (by omega)]⟩
    · dsimp only
      have l : (s.mem.take s.size ++ List.replicate (n - s.size) 0).length = n := by simp; omega
      rw [List.length_append, l, List.length_cons]
      exact ⟨by omega, by rw [List.getElem?_append_right (by omega), l, Nat.sub_self]; rfl⟩

/-! ## C181 -/

/-- **C181**: formatting gives the text that `printf` would write, of any length. Missing: texts with a zero. -/
theorem C181_format_partial {out : List Nat} (h : 0 ∉ out) (room junk junk' : List Nat) : ∃ s, strTF out room junk junk' = some s ∧ s.text = out ∧ s.Ok := by
  have he : (empty room).size < (empty room).mem.length := by simp [empty]
  have hok := resize_ok (empty room) (out.length + 1) junk he
  have hsz : (resize (empty room) (out.length + 1) junk).size = out.length + 1 := by
    unfold resize; repeat' split
    all_goals rfl
  unfold strTF
  dsimp only
  generalize resize (empty room) (out.length + 1) junk = r at hok hsz ⊢
  obtain ⟨h1, -⟩ := hok
  rw [hsz] at h1
  have e : vsnprintf r.mem (r.mem.length - 1) out = out ++ 0 :: r.mem.drop (out.length + 1) := by
    unfold vsnprintf
    rw [if_neg (by omega)]
    dsimp only
    rw [List.take_of_length_le (by omega)]
    simp
  rw [e]
  unfold recalcSize
  dsimp only
  rw [strlen_append h]
  refine ⟨_, rfl, ?_, resize_ok _ _ _ ?_⟩
  · rw [resize_text]
    · unfold S.text
      dsimp only
      rw [hsz, List.take_take, Nat.min_eq_left (by omega), List.take_left', Nat.sub_eq_zero_of_le (by omega), List.replicate_zero, List.append_nil]
      rfl
    · simp only [hsz, List.length_append, List.length_cons, List.length_drop]; omega
  · simp only [hsz, List.length_append, List.length_cons, List.length_drop]; omega

example : (0 ∉ [72, 105, 33]) ∧ (strTF [72, 105, 33] [9, 9] [7] []).map S.text = some [72, 105, 33] := by decide

/-- C181 fails for a text with a zero, for example of `%c`: the rest is lost. -/
theorem C181_zero_counterexample : (strTF [72, 0, 105] [] [7] []).map S.text = some [72] := by decide

/-! ## C182 -/

/-- **C182**: text written through the pointer into the characters of a string, with its terminator, is the string after `RecalcSize`. Missing: text written behind the characters. -/
theorem C182_written_partial {s s' : S} {l : List Nat} {i : Nat} (h : s.Ok) (hi : i + l.length ≤ s.size) (hz : 0 ∉ s.text.take i) (hl : 0 ∉ l) (hp : poke s i (l ++ [0]) = some s') (junk : List Nat) :
    ∃ r, recalcSize s' junk = some r ∧ r.text = s.text.take i ++ l ∧ r.Ok := by
  obtain ⟨h1, h2⟩ := h
  unfold poke at hp
  rw [if_pos (by simp; omega)] at hp
  injection hp with hp
  subst hp
  have et : s.text.take i = s.mem.take i := by unfold S.text; rw [List.take_take, Nat.min_eq_left (by omega)]
  rw [et] at hz ⊢
  have e : s.mem.take i ++ (l ++ [0]) ++ s.mem.drop (i + (l ++ [0]).length) = (s.mem.take i ++ l) ++ 0 :: s.mem.drop (i + (l ++ [0]).length) := by simp
  have len : (s.mem.take i ++ l).length = i + l.length := by simp; omega
  unfold recalcSize
  dsimp only
  rw [e, strlen_append (by rw [List.mem_append]; rintro (h | h); exact hz h; exact hl h)]
  have hm : s.size < ((s.mem.take i ++ l) ++ 0 :: s.mem.drop (i + (l ++ [0]).length)).length := by
    rw [List.length_append, len, List.length_cons, List.length_drop, List.length_append]
    simp only [List.length_cons, List.length_nil]; omega
  refine ⟨_, rfl, ?_, resize_ok _ _ _ hm⟩
  rw [resize_text _ _ _ hm]
  unfold S.text
  dsimp only
  rw [len, List.take_take, Nat.min_eq_left hi, Nat.sub_eq_zero_of_le hi, List.replicate_zero, List.append_nil, List.take_left' len]

/-- The hypotheses hold for a string of three characters of which the first stays. -/
example : S.Ok ⟨[65, 66, 67, 0, 9], 3⟩ ∧ (poke ⟨[65, 66, 67, 0, 9], 3⟩ 1 [90, 0]).bind (recalcSize · []) = some ⟨[65, 90, 0, 0, 9], 2⟩ := by
  refine ⟨⟨by decide, by decide⟩, by decide⟩

/-- C182 fails behind the characters, in reserved memory: there are as many characters as were written, but all that are new are zero. -/
theorem C182_reserved_false {s s' : S} {l : List Nat} (h : s.Ok) (hz : 0 ∉ s.text) (hl : 0 ∉ l) (hp : poke s s.size (l ++ [0]) = some s') (junk : List Nat) :
    ∃ r, recalcSize s' junk = some r ∧ r.text = s.text ++ List.replicate l.length 0 := by
  obtain ⟨h1, h2⟩ := h
  unfold poke at hp
  split at hp
  case isFalse => cases hp
  next hle =>
  injection hp with hp
  subst hp
  have e : s.mem.take s.size ++ (l ++ [0]) ++ s.mem.drop (s.size + (l ++ [0]).length) = (s.mem.take s.size ++ l) ++ 0 :: s.mem.drop (s.size + (l ++ [0]).length) := by simp
  have len : (s.mem.take s.size ++ l).length = s.size + l.length := by simp; omega
  unfold recalcSize
  dsimp only
  rw [e, strlen_append (by rw [List.mem_append]; rintro (h | h); exact hz h; exact hl h)]
  refine ⟨_, rfl, ?_⟩
  rw [resize_text]
  · have ht : (⟨s.mem.take s.size ++ l ++ 0 :: s.mem.drop (s.size + (l ++ [0]).length), s.size⟩ : S).text = s.text := by
      unfold S.text
      dsimp only
      rw [List.append_assoc, List.take_left' (by simp; omega)]
    rw [ht, len, Nat.add_sub_cancel_left, List.take_of_length_le]
    unfold S.text; simp; omega
  · dsimp only
    rw [List.length_append, len, List.length_cons]; omega

/-- So `StrT s(8)`, a copy of "Hi" into it and `RecalcSize` give two zeros. -/
example : (poke (empty [1, 2, 3, 4, 5, 6, 7, 8]) 0 [72, 105, 0]).bind (fun s => (recalcSize s []).map S.text) = some [0, 0] := by decide

/-! ## C183 -/

/-- **C183**: all forms of `+` give the characters of the left operand followed by those of the right one, whatever the capacities, and also if the pointer is the string's own. -/
theorem C183_plus (s t : List Nat) (capS capT c : Nat) {l : List Nat} (hl : 0 ∉ l) (m : List Nat) (hs : 0 ∉ s) :
    plus s t = s ++ t ∧ plusMove s t = s ++ t ∧ plusBoth s t capS capT = s ++ t ∧ charPlus c s = c :: s ∧ ptrPlus (l ++ 0 :: m) s = l ++ s ∧
    plusPtr s (.other (l ++ 0 :: m)) = s ++ l ∧ (∀ i, plusPtr s (.own i) = s ++ s.drop i) ∧ plusPtr s .null = s := by
  refine ⟨rfl, ?_, ?_, rfl, ?_, ?_, fun i => ?_, ?_⟩
  · unfold plusMove insert; simp
  · unfold plusBoth insert; split <;> simp
  · unfold ptrPlus appendPtr Ptr.get; rw [if_pos (by simp)]; dsimp only; rw [cstr_append hl, List.nil_append]
  · unfold plusPtr appendPtr Ptr.get; rw [if_pos (by simp)]; dsimp only; rw [cstr_append hl, cstr_append hl]
  · have hd : cstr (s.drop i) = s.drop i := cstr_self fun h => hs (List.mem_of_mem_drop h)
    unfold plusPtr appendPtr Ptr.get
    dsimp only
    rw [if_pos (by simp), hd, cstr_append (fun h => hs (List.mem_of_mem_drop h))]
  · unfold plusPtr appendPtr Ptr.get; simp [cstr]

/-- **C183**: `+=` and `=` with a pointer take the text up to the terminator, and nothing from a null pointer. Missing: `+=` with the string's own pointer. -/
theorem C183_pointer_partial (s : List Nat) {l : List Nat} (hl : 0 ∉ l) (m : List Nat) (hs : 0 ∉ s) :
    appendPtr s (.other (l ++ 0 :: m)) = s ++ l ∧ appendPtr s .null = s ∧ (∀ i, i ≠ 0 → appendPtr s (.own i) = s ++ s.drop i) ∧
    assignPtr s (.other (l ++ 0 :: m)) = l ∧ assignPtr s .null = [] ∧ ∀ i, assignPtr s (.own i) = s.drop i := by
  have hd : ∀ i, cstr (s.drop i) = s.drop i := fun i => cstr_self fun h => hs (List.mem_of_mem_drop h)
  refine ⟨?_, rfl, fun i hi => ?_, ?_, rfl, fun i => ?_⟩
  · unfold appendPtr Ptr.get; rw [if_pos (by simp)]; dsimp only; rw [cstr_append hl]
  · unfold appendPtr Ptr.get; rw [if_pos (by simp [hi])]; dsimp only; rw [hd]
  · unfold assignPtr Ptr.get; rw [if_pos (by simp)]; dsimp only; rw [cstr_append hl]
  · unfold assignPtr Ptr.get; rw [if_pos (by simp)]; dsimp only; rw [hd]

example : (0 ∉ [66, 67]) ∧ appendPtr [65] (.other [66, 67, 0, 9]) = [65, 66, 67] ∧ plusBoth [65] [66] 15 15 = [65, 66] ∧ plusBoth [65] [66] 1 15 = [65, 66] := by decide

/-- C183 fails for the string's own pointer: nothing is appended. -/
theorem C183_own_false (s : List Nat) : appendPtr s (.own 0) = s := by unfold appendPtr; simp

end Verif.StrBuild
