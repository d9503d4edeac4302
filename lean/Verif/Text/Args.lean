import Verif.Text.Basic

/-!
# Command lines
-/

namespace Verif.Text

/-- How far a quoted argument goes: the characters behind the opening quote before the one that is replaced. -/
def qlen : List Int → Nat
  | [] => 0
  | [_] => 0
  | x :: y :: r => if x ≠ 34 ∨ ¬ isSpace y then qlen (y :: r) + 1 else 0

/-- How far a plain argument goes. -/
def plen (s : List Int) : Nat := (s.takeWhile fun c => !isSpace c).length

theorem quoted_eq (s : List Int) : ∀ (pre rest : List Int) (c : Int), 0 ∉ s → quoted (pre ++ c :: (s ++ 0 :: rest)) pre.length = some (pre.length + 1 + qlen s) := by
  induction s with
  | nil =>
    intro pre rest c _
    rw [show pre ++ c :: ([] ++ 0 :: rest) = (pre ++ [c]) ++ 0 :: rest by simp, quoted, dif_pos (lt_mid (by simp)), getElem_mid (by simp), if_pos rfl]
    simp [qlen]
  | cons x s ih =>
    intro pre rest c h
    simp only [List.mem_cons, not_or] at h
    have ih := ih (pre ++ [c]) rest x h.2
    rw [show pre ++ [c] ++ x :: (s ++ 0 :: rest) = pre ++ c :: (x :: s ++ 0 :: rest) by simp] at ih
    have h1 : ∀ hp : pre.length + 1 < (pre ++ c :: (x :: s ++ 0 :: rest)).length, (pre ++ c :: (x :: s ++ 0 :: rest))[pre.length + 1] = x := by
      intro hp; simp
    rw [quoted, dif_pos (by simp), h1, if_neg (Ne.symm h.1)]
    cases s with
    | nil =>
      rw [show pre ++ c :: ([x] ++ 0 :: rest) = (pre ++ [c, x]) ++ 0 :: rest by simp, rd_mid (by simp)]
      simp [qlen]
    | cons y s =>
      have hy : y ≠ 0 := fun e => h.2 (by simp [e])
      rw [show rd (pre ++ c :: (x :: y :: s ++ 0 :: rest)) (pre.length + 2) = some y by
        rw [show pre ++ c :: (x :: y :: s ++ 0 :: rest) = (pre ++ [c, x]) ++ y :: (s ++ 0 :: rest) by simp]; exact rd_mid (by simp)]
      rw [Option.bind_some, qlen]
      by_cases hc : x ≠ 34 ∨ ¬ isSpace y
      · rw [if_pos ⟨hy, hc⟩, if_pos hc]
        simp only [List.length_append, List.length_singleton] at ih
        rw [ih]
        congr 1; omega
      · rw [if_neg (fun e => hc e.2), if_neg hc]

theorem plain_eq (s : List Int) : ∀ (pre rest : List Int) (c : Int), 0 ∉ s → plain (pre ++ c :: (s ++ 0 :: rest)) pre.length = some (pre.length + 1 + plen s) := by
  induction s with
  | nil =>
    intro pre rest c _
    rw [show pre ++ c :: ([] ++ 0 :: rest) = (pre ++ [c]) ++ 0 :: rest by simp, plain, dif_pos (lt_mid (by simp)), getElem_mid (by simp), if_neg (by simp)]
    simp [plen]
  | cons x s ih =>
    intro pre rest c h
    simp only [List.mem_cons, not_or] at h
    have ih := ih (pre ++ [c]) rest x h.2
    rw [show pre ++ [c] ++ x :: (s ++ 0 :: rest) = pre ++ c :: (x :: s ++ 0 :: rest) by simp] at ih
    have h1 : ∀ hp : pre.length + 1 < (pre ++ c :: (x :: s ++ 0 :: rest)).length, (pre ++ c :: (x :: s ++ 0 :: rest))[pre.length + 1] = x := by
      intro hp; simp
    rw [plain, dif_pos (by simp), h1]
    by_cases hx : isSpace x = true
    · rw [if_neg (fun e => e.2 hx)]
      simp [plen, hx]
    · rw [if_pos ⟨Ne.symm h.1, hx⟩]
      simp only [List.length_append, List.length_singleton] at ih
      rw [ih]
      simp only [Bool.not_eq_true] at hx
      simp [plen, hx]; omega

/-- Where an argument starts and ends. -/
def start (c : Int) (p : Nat) : Nat := if c = 34 then p + 1 else p

def wlen (c : Int) (s : List Int) : Nat := if c = 34 then qlen s else plen s

theorem qlen_le (s : List Int) : qlen s ≤ s.length := by
  induction s with
  | nil => simp [qlen]
  | cons x s ih =>
    cases s with
    | nil => simp [qlen]
    | cons y s => rw [qlen]; split <;> simp only [List.length_cons] at ih ⊢ <;> omega

theorem wlen_le (c : Int) (s : List Int) : wlen c s ≤ s.length := by
  unfold wlen
  split
  · exact qlen_le s
  · exact (List.takeWhile_prefix _).length_le

theorem argv_end (w : Bool) (pre rest : List Int) : argv w (pre ++ 0 :: rest) pre.length = some (pre ++ 0 :: rest, []) := by
  rw [argv, dif_pos (lt_mid rfl), getElem_mid rfl, if_pos rfl]

theorem argv_space (w : Bool) (pre post : List Int) (c : Int) (hc : isSpace c = true) :
    argv w (pre ++ c :: post) pre.length = argv w (pre ++ c :: post) (pre.length + 1) := by
  have h0 : c ≠ 0 := by rintro rfl; simp [isSpace] at hc
  rw [argv, dif_pos (lt_mid rfl), getElem_mid rfl, if_neg h0, if_neg (by simp [hc])]

/-- An argument up to the end of the text. -/
theorem argv_last (w : Bool) (pre s rest : List Int) (c : Int) (h0 : 0 ∉ c :: s) (hc : isSpace c = false) (hw : wlen c s = s.length) :
    argv w (pre ++ c :: (s ++ 0 :: rest)) pre.length = some (pre ++ c :: (s ++ 0 :: rest), [start c pre.length]) := by
  simp only [List.mem_cons, not_or] at h0
  have hq : (if c = 34 then quoted (pre ++ c :: (s ++ 0 :: rest)) pre.length else plain (pre ++ c :: (s ++ 0 :: rest)) pre.length) =
      some (pre.length + 1 + s.length) := by
    unfold wlen at hw
    split at hw
    · rw [if_pos ‹_›, quoted_eq s pre rest c h0.2, hw]
    · rw [if_neg ‹_›, plain_eq s pre rest c h0.2, hw]
  have hr : rd (pre ++ c :: (s ++ 0 :: rest)) (pre.length + 1 + s.length) = some 0 := by
    rw [show pre ++ c :: (s ++ 0 :: rest) = (pre ++ c :: s) ++ 0 :: rest by simp]
    exact rd_mid (by simp; omega)
  rw [argv, dif_pos (lt_mid rfl), getElem_mid rfl, if_neg (Ne.symm h0.1), if_pos (by simp [hc])]
  split
  · rename_i h; rw [hq] at h; cases h
  · rename_i q h
    rw [hq] at h
    cases h
    rw [hr, Option.bind_some, if_pos rfl]
    rfl

/-- An argument and the character behind it. -/
theorem argv_word (w : Bool) (pre u v rest : List Int) (c e : Int) (h0 : 0 ∉ c :: (u ++ e :: v)) (hc : isSpace c = false) (hw : wlen c (u ++ e :: v) = u.length) :
    argv w (pre ++ c :: (u ++ e :: v ++ 0 :: rest)) pre.length =
      (argv w (pre ++ c :: (u ++ (if w then 0 else e) :: v ++ 0 :: rest)) (pre.length + 1 + u.length + 1)).map fun x => (x.1, start c pre.length :: x.2) := by
  simp only [List.mem_cons, not_or] at h0
  have he : e ≠ 0 := fun h => h0.2 (by simp [h])
  have hq : (if c = 34 then quoted (pre ++ c :: (u ++ e :: v ++ 0 :: rest)) pre.length else plain (pre ++ c :: (u ++ e :: v ++ 0 :: rest)) pre.length) =
      some (pre.length + 1 + u.length) := by
    unfold wlen at hw
    split at hw
    · rw [if_pos ‹_›, quoted_eq (u ++ e :: v) pre rest c h0.2, hw]
    · rw [if_neg ‹_›, plain_eq (u ++ e :: v) pre rest c h0.2, hw]
  have hm : ∀ x : Int, pre ++ c :: (u ++ x :: v ++ 0 :: rest) = (pre ++ c :: u) ++ x :: (v ++ 0 :: rest) := by intro x; simp
  have hr : rd (pre ++ c :: (u ++ e :: v ++ 0 :: rest)) (pre.length + 1 + u.length) = some e := by
    rw [hm]; exact rd_mid (by simp; omega)
  have hs : (pre ++ c :: (u ++ e :: v ++ 0 :: rest)).set (pre.length + 1 + u.length) 0 = pre ++ c :: (u ++ 0 :: v ++ 0 :: rest) := by
    rw [hm, hm, set_mid (by simp; omega)]
  rw [argv, dif_pos (lt_mid rfl), getElem_mid rfl, if_neg (Ne.symm h0.1), if_pos (by simp [hc])]
  split
  · rename_i h; rw [hq] at h; cases h
  · rename_i q h
    rw [hq] at h
    cases h
    rw [hr, Option.bind_some, if_neg he, hs]
    cases w <;> rfl

/-- Both passes over a text are defined, find the same arguments and change nothing outside of it. -/
theorem argv_total (n : Nat) : ∀ (s pre1 pre2 rest : List Int), s.length ≤ n → 0 ∉ s → pre1.length = pre2.length →
    ∃ s' ps, argv true (pre1 ++ (s ++ 0 :: rest)) pre1.length = some (pre1 ++ (s' ++ 0 :: rest), ps) ∧ s'.length = s.length ∧
      argv false (pre2 ++ (s ++ 0 :: rest)) pre2.length = some (pre2 ++ (s ++ 0 :: rest), ps) := by
  induction n with
  | zero =>
    intro s pre1 pre2 rest hn h0 hl
    obtain rfl : s = [] := List.length_eq_zero_iff.mp (by omega)
    exact ⟨[], [], argv_end true pre1 rest, rfl, argv_end false pre2 rest⟩
  | succ n ih =>
    intro s pre1 pre2 rest hn h0 hl
    cases s with
    | nil => exact ⟨[], [], argv_end true pre1 rest, rfl, argv_end false pre2 rest⟩
    | cons c s =>
      have h0' : 0 ∉ s := fun h => h0 (by simp [h])
      simp only [List.cons_append, List.length_cons] at hn ⊢
      by_cases hc : isSpace c = true
      · rw [argv_space true pre1 _ c hc, argv_space false pre2 _ c hc]
        obtain ⟨s', ps, h1, h2, h3⟩ := ih s (pre1 ++ [c]) (pre2 ++ [c]) rest (by omega) h0' (by simp [hl])
        simp only [List.append_assoc, List.singleton_append, List.length_append, List.length_singleton] at h1 h3
        exact ⟨c :: s', ps, by simpa using h1, by simp [h2], h3⟩
      · rw [Bool.not_eq_true] at hc
        rcases Nat.lt_or_ge (wlen c s) s.length with hw | hw
        · obtain ⟨u, e, v, rfl, hu⟩ : ∃ u e v, s = u ++ e :: v ∧ u.length = wlen c s :=
            ⟨s.take (wlen c s), s[wlen c s], s.drop (wlen c s + 1), by simp, by simp; omega⟩
          have h1 := argv_word true pre1 u v rest c e h0 hc hu.symm
          have h2 := argv_word false pre2 u v rest c e h0 hc hu.symm
          obtain ⟨s', ps, i1, i2, i3⟩ := ih v (pre1 ++ c :: (u ++ [0])) (pre2 ++ c :: (u ++ [e])) rest (by simp at hn; omega)
            (fun h => h0' (by simp [h])) (by simp [hl])
          rw [show pre1 ++ c :: (u ++ [0]) ++ (v ++ 0 :: rest) = pre1 ++ c :: (u ++ (if true then 0 else e) :: v ++ 0 :: rest) by simp,
            show (pre1 ++ c :: (u ++ [0])).length = pre1.length + 1 + u.length + 1 by simp; omega] at i1
          rw [show pre2 ++ c :: (u ++ [e]) ++ (v ++ 0 :: rest) = pre2 ++ c :: (u ++ (if false then 0 else e) :: v ++ 0 :: rest) by simp,
            show (pre2 ++ c :: (u ++ [e])).length = pre2.length + 1 + u.length + 1 by simp; omega] at i3
          rw [i1] at h1
          rw [i3] at h2
          refine ⟨c :: (u ++ 0 :: s'), start c pre1.length :: ps, ?_, by simp [i2], ?_⟩
          · rw [h1]; simp
          · rw [h2]; simp [hl]
        · have hw : wlen c s = s.length := Nat.le_antisymm (wlen_le c s) hw
          exact ⟨c :: s, [start c pre1.length], argv_last true pre1 s rest c h0 hc hw, rfl, hl ▸ argv_last false pre2 s rest c h0 hc hw⟩

end Verif.Text
