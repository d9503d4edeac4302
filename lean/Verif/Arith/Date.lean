/-!
# `DaysFromCivil` (C54), `bss_util.h:977-988`
-/

namespace Verif.Arith

/-- Specification: Gregorian leap years. -/
def isLeap (y : Int) : Bool := y % 4 = 0 ∧ (y % 100 ≠ 0 ∨ y % 400 = 0)

/-- Specification: length of a month. -/
def daysInMonth (y : Int) (m : Nat) : Nat :=
  if m = 2 then (if isLeap y then 29 else 28)
  else if m = 4 ∨ m = 6 ∨ m = 9 ∨ m = 11 then 30 else 31

/-- Specification: a calendar date of the proleptic Gregorian calendar. -/
structure Date where
  y : Int
  m : Nat
  d : Nat
  deriving DecidableEq

def Date.Valid (t : Date) : Prop := 1 ≤ t.m ∧ t.m ≤ 12 ∧ 1 ≤ t.d ∧ t.d ≤ daysInMonth t.y t.m

/-- Specification: the day after. -/
def Date.next (t : Date) : Date :=
  if t.d < daysInMonth t.y t.m then ⟨t.y, t.m, t.d + 1⟩
  else if t.m < 12 then ⟨t.y, t.m + 1, 1⟩
  else ⟨t.y + 1, 1, 1⟩

/-- `DaysFromCivil`, `bss_util.h:977-988`.  `I` is unbounded here (the real type overflows for years beyond
about `2^31·365⁻¹` of it); the `unsigned` sub-expressions are the naturals below, `m + (m > 2 ? -3 : 9)` wraps
to `m - 3`. C++ division truncates. -/
def daysFromCivil (y : Int) (m d : Nat) : Int :=
  let y := y - (if m ≤ 2 then 1 else 0)
  let era := Int.tdiv (if y ≥ 0 then y else y - 399) 400
  let yoe := (y - era * 400).toNat
  let doy := (153 * (if m > 2 then m - 3 else m + 9) + 2) / 5 + d - 1
  let doe := yoe * 365 + yoe / 4 - yoe / 100 + doy
  era * 146097 + (doe : Int) - 719468

theorem era_eq (y : Int) : Int.tdiv (if y ≥ 0 then y else y - 399) 400 = y / 400 := by
  rw [Int.tdiv_eq_ediv]
  split
  · next h => rw [if_pos (Or.inl h)]; omega
  · next h =>
    split
    · next h' => omega
    · next h' =>
      have : Int.sign (400 : Int) = 1 := rfl
      rw [this]; omega

/-- Same value with floor division on `Int` throughout. -/
theorem daysFromCivil_eq (y : Int) (m d : Nat) (hd : 1 ≤ d) : daysFromCivil y m d =
    (let y := y - (if m ≤ 2 then 1 else 0)
     365 * y + y / 4 - y / 100 + y / 400 + ((153 * (if m > 2 then (m : Int) - 3 else m + 9) + 2) / 5) + d - 1 - 719468) := by
  unfold daysFromCivil
  simp only [era_eq]
  generalize y - (if m ≤ 2 then 1 else 0) = z
  have e : ((153 * (if m > 2 then m - 3 else m + 9) + 2) / 5 : Nat) =
      ((153 * (if m > 2 then (m : Int) - 3 else m + 9) + 2) / 5 : Int) := by split <;> omega
  generalize (153 * (if m > 2 then (m : Int) - 3 else m + 9) + 2) / 5 = A at *
  generalize (153 * (if m > 2 then m - 3 else m + 9) + 2) / 5 = B at *
  omega

/-- C54: consecutive dates get consecutive numbers, every month length and leap year included. -/
theorem C54_next (t : Date) (h : t.Valid) :
    daysFromCivil t.next.y t.next.m t.next.d = daysFromCivil t.y t.m t.d + 1 := by
  obtain ⟨y, m, d⟩ := t
  obtain ⟨h1, h2, h3, h4⟩ := h
  simp only at h1 h2 h3 h4
  unfold Date.next
  simp only
  split
  · next hlt =>
    rw [daysFromCivil_eq _ _ (d + 1) (by omega), daysFromCivil_eq _ _ _ h3]; simp only; generalize (153 * (if m > 2 then (m : Int) - 3 else m + 9) + 2) / 5 = A; generalize y - (if m ≤ 2 then 1 else 0) = z; omega
  · next hge =>
    have hd : d = daysInMonth y m := by omega
    subst hd
    have hpos : 1 ≤ daysInMonth y m := h3
    split
    · next hm =>
      rw [daysFromCivil_eq _ _ 1 (by omega), daysFromCivil_eq _ _ _ hpos]
      by_cases hm2 : m = 2
      · subst hm2
        have hl : isLeap y = true ↔ (y % 4 = 0 ∧ (y % 100 ≠ 0 ∨ y % 400 = 0)) := by simp [isLeap]
        simp only [daysInMonth, if_true]
        by_cases h : isLeap y = true
        · have := hl.1 h; simp [h]; omega
        · have := mt hl.2 h; simp [h]; omega
      · have : m = 1 ∨ m = 3 ∨ m = 4 ∨ m = 5 ∨ m = 6 ∨ m = 7 ∨ m = 8 ∨ m = 9 ∨ m = 10 ∨ m = 11 := by omega
        rcases this with rfl | rfl | rfl | rfl | rfl | rfl | rfl | rfl | rfl | rfl <;> simp [daysInMonth] <;> omega
    · next hm =>
      have : m = 12 := by omega
      subst this
      rw [daysFromCivil_eq _ _ 1 (by omega), daysFromCivil_eq _ _ _ hpos]
      simp [daysInMonth]; omega

/-- C54: day zero is 1970-01-01. -/
theorem C54_epoch : daysFromCivil 1970 1 1 = 0 := by decide

/-- The day after a valid date is a valid date. -/
theorem next_valid (t : Date) (h : t.Valid) : t.next.Valid := by
  obtain ⟨y, m, d⟩ := t
  obtain ⟨h1, h2, h3, h4⟩ := h
  have hp : ∀ y m, 1 ≤ daysInMonth y m := by
    intro y m; unfold daysInMonth; repeat' split
    all_goals omega
  simp only at h1 h2 h3 h4
  unfold Date.next
  simp only
  split
  · exact ⟨h1, h2, by simp, by simpa using by omega⟩
  · split
    · exact ⟨by simp, by simp; omega, by simp, hp _ _⟩
    · exact ⟨by simp, by simp, by simp, hp _ _⟩

/-- `n` days later. -/
def Date.after : Date → Nat → Date
  | t, 0 => t
  | t, n + 1 => (t.after n).next

/-- C54: `n` calendar days after any valid date the number is `n` larger; from the epoch on it is the day
count. -/
theorem C54_count (t : Date) (h : t.Valid) (n : Nat) :
    daysFromCivil (t.after n).y (t.after n).m (t.after n).d = daysFromCivil t.y t.m t.d + n := by
  have hv : ∀ n, (t.after n).Valid := by
    intro n; induction n with
    | zero => exact h
    | succ n ih => exact next_valid _ ih
  induction n with
  | zero => simp [Date.after]
  | succ n ih =>
    show daysFromCivil (t.after n).next.y (t.after n).next.m (t.after n).next.d = _
    rw [C54_next _ (hv n), ih]; omega

/-- C54: different dates have different numbers, later dates larger ones (chronological order is the
lexicographic order of year, month, day). -/
theorem C54_monotone (s t : Date) (hs : s.Valid) (ht : t.Valid)
    (hlt : s.y < t.y ∨ (s.y = t.y ∧ (s.m < t.m ∨ (s.m = t.m ∧ s.d < t.d)))) :
    daysFromCivil s.y s.m s.d < daysFromCivil t.y t.m t.d := by
  -- the last day of the year / month bounds
  have yearStart : ∀ y : Int, daysFromCivil y 1 1 = 365 * (y - 1) + (y - 1) / 4 - (y - 1) / 100 + (y - 1) / 400 + 306 - 719468 := by
    intro y; rw [daysFromCivil_eq _ 1 1 (by omega)]; simp
  have low : ∀ u : Date, u.Valid → daysFromCivil u.y 1 1 ≤ daysFromCivil u.y u.m u.d := by
    intro ⟨y, m, d⟩ ⟨h1, h2, h3, h4⟩
    simp only at *
    rw [daysFromCivil_eq _ 1 1 (by omega), daysFromCivil_eq _ _ _ h3]
    have : m = 1 ∨ m = 2 ∨ m = 3 ∨ m = 4 ∨ m = 5 ∨ m = 6 ∨ m = 7 ∨ m = 8 ∨ m = 9 ∨ m = 10 ∨ m = 11 ∨ m = 12 := by omega
    rcases this with rfl | rfl | rfl | rfl | rfl | rfl | rfl | rfl | rfl | rfl | rfl | rfl <;> simp <;> omega
  have dim : ∀ (y : Int) m, daysInMonth y m ≤ 31 := by
    intro y m; unfold daysInMonth; repeat' split
    all_goals omega
  have high : ∀ u : Date, u.Valid → daysFromCivil u.y u.m u.d ≤ daysFromCivil u.y 12 31 := by
    intro ⟨y, m, d⟩ ⟨h1, h2, h3, h4⟩
    simp only at *
    have := dim y m
    rw [daysFromCivil_eq _ _ _ h3, daysFromCivil_eq _ 12 31 (by omega)]
    have : m = 1 ∨ m = 2 ∨ m = 3 ∨ m = 4 ∨ m = 5 ∨ m = 6 ∨ m = 7 ∨ m = 8 ∨ m = 9 ∨ m = 10 ∨ m = 11 ∨ m = 12 := by omega
    rcases this with rfl | rfl | rfl | rfl | rfl | rfl | rfl | rfl | rfl | rfl | rfl | rfl <;> simp <;> omega
  rcases hlt with hy | ⟨hy, hm | ⟨hm, hd⟩⟩
  · have h1 := high s hs
    have h2 := low t ht
    have h3 : daysFromCivil s.y 12 31 < daysFromCivil (s.y + 1) 1 1 := by
      have := C54_next ⟨s.y, 12, 31⟩ ⟨by simp, by simp, by simp, by simp [daysInMonth]⟩
      simp [Date.next, daysInMonth] at this; omega
    have h4 : daysFromCivil (s.y + 1) 1 1 ≤ daysFromCivil t.y 1 1 := by
      rw [yearStart, yearStart]; omega
    omega
  · obtain ⟨y, m, d⟩ := s
    obtain ⟨y', m', d'⟩ := t
    obtain ⟨h1, h2, h3, h4⟩ := hs
    obtain ⟨g1, g2, g3, g4⟩ := ht
    simp only at *
    subst hy
    -- last day of the earlier month, first day of the next, first day of the later one
    have k1 : daysFromCivil y m d ≤ daysFromCivil y m (daysInMonth y m) := by
      rw [daysFromCivil_eq _ _ d h3, daysFromCivil_eq _ _ (daysInMonth y m) (by omega)]; simp only
      generalize (153 * (if m > 2 then (m : Int) - 3 else m + 9) + 2) / 5 = A
      generalize y - (if m ≤ 2 then 1 else 0) = z
      omega
    have k2 : daysFromCivil y (m + 1) 1 = daysFromCivil y m (daysInMonth y m) + 1 := by
      have := C54_next ⟨y, m, daysInMonth y m⟩ ⟨h1, h2, by simp only; omega, by simp⟩
      have hm12 : m < 12 := by omega
      simpa [Date.next, hm12] using this
    have k3 : daysFromCivil y m' 1 ≤ daysFromCivil y m' d' := by
      rw [daysFromCivil_eq _ _ 1 (by omega), daysFromCivil_eq _ _ d' g3]; simp only
      generalize (153 * (if m' > 2 then (m' : Int) - 3 else m' + 9) + 2) / 5 = A
      generalize y - (if m' ≤ 2 then 1 else 0) = z
      omega
    have k4 : ∀ k, m + 1 + k ≤ 12 → daysFromCivil y (m + 1) 1 ≤ daysFromCivil y (m + 1 + k) 1 := by
      intro k
      induction k with
      | zero => intro _; simp
      | succ k ihk =>
        intro hk
        have h5 := ihk (by omega)
        have h6 : daysFromCivil y (m + 1 + k) 1 ≤ daysFromCivil y (m + 1 + (k + 1)) 1 := by
          rw [daysFromCivil_eq _ _ 1 (by omega), daysFromCivil_eq _ _ 1 (by omega)]
          simp only
          split <;> split <;> split <;> split <;> omega
        omega
    have := k4 (m' - (m + 1)) (by omega)
    rw [show m + 1 + (m' - (m + 1)) = m' by omega] at this
    omega
  · obtain ⟨y, m, d⟩ := s
    obtain ⟨y', m', d'⟩ := t
    simp only at *
    subst hy hm
    rw [daysFromCivil_eq _ _ _ hs.2.2.1, daysFromCivil_eq _ _ _ ht.2.2.1]; simp only; omega

example : (⟨2024, 2, 28⟩ : Date).Valid ∧ (⟨2024, 2, 28⟩ : Date).next = ⟨2024, 2, 29⟩ ∧
    (⟨-401, 12, 31⟩ : Date).next = ⟨-400, 1, 1⟩ := by
  refine ⟨⟨?_, ?_, ?_, ?_⟩, ?_, ?_⟩ <;> decide

end Verif.Arith
