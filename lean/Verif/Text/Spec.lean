/-!
# Specifications for strings

Nothing here refers to the functions of the model.
-/

namespace Verif.Text

/-- The C string `s` is in memory at `p`. -/
def At (m : List Int) (p : Nat) (s : List Int) : Prop := 0 ∉ s ∧ ∃ pre rest, pre.length = p ∧ m = pre ++ (s ++ 0 :: rest)

/-- The blanks that are trimmed: the characters from 1 to 32. -/
def Blank (c : Int) : Prop := 0 < c ∧ c < 33

/-- `t` is `s` without the blanks at its ends. -/
def Trimmed (s t : List Int) : Prop :=
  ∃ a b, s = a ++ (t ++ b) ∧ (∀ c ∈ a, Blank c) ∧ (∀ c ∈ b, Blank c) ∧ (∀ c, t.head? = some c → ¬ Blank c) ∧ ∀ c, t.getLast? = some c → ¬ Blank c

/-- White space between arguments. -/
def White (c : Int) : Prop := c = 32 ∨ (9 ≤ c ∧ c ≤ 13)

/-- A command line and its arguments. Arguments are separated by white space; one in quotes (34) may contain white space, and ends with a quote before white space or the end. -/
inductive Line : List Int → List (List Int) → Prop
  | done (w : List Int) : (∀ c ∈ w, White c) → Line w []
  | plain (w a t : List Int) (as : List (List Int)) : (∀ c ∈ w, White c) → a ≠ [] → (∀ c ∈ a, ¬ White c) → a.head? ≠ some 34 →
      (∀ c, t.head? = some c → White c) → Line t as → Line (w ++ a ++ t) (a :: as)
  | quoted (w a t : List Int) (as : List (List Int)) : (∀ c ∈ w, White c) → (∀ u x v, a = u ++ 34 :: x :: v → ¬ White x) →
      (∀ c, t.head? = some c → White c) → Line t as → Line (w ++ 34 :: (a ++ 34 :: t)) (a :: as)

/-- A decimal digit. -/
def Digit (c : Int) : Prop := 48 ≤ c ∧ c ≤ 57

/-- A placeholder, `{d}` or `{dd}`. -/
inductive Placeholder : List Int → Int → Prop
  | one (d : Int) : Digit d → Placeholder [123, d, 125] (d - 48)
  | two (d e : Int) : Digit d → Digit e → Placeholder [123, d, e, 125] (10 * (d - 48) + (e - 48))

/-- What a format stands for: characters (`inl`) and arguments (`inr`), read from left to right. -/
inductive Reads : List Int → List (Int ⊕ Int) → Prop
  | done : Reads [] []
  | arg (h t : List Int) (n : Int) (r : List (Int ⊕ Int)) : Placeholder h n → Reads t r → Reads (h ++ t) (.inr n :: r)
  | char (c : Int) (t : List Int) (r : List (Int ⊕ Int)) : (∀ h n t', Placeholder h n → c :: t ≠ h ++ t') → Reads t r → Reads (c :: t) (.inl c :: r)

end Verif.Text
