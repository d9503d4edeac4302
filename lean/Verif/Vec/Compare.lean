import Mathlib.Order.PiLex
import Mathlib.Data.Fin.Tuple.Basic
import Mathlib.Data.List.FinRange
import Mathlib.Data.Fin.VecNotation
import Mathlib.Data.Fintype.Card

/-!
# Comparison of vectors (C101)

Elements are those of a linear order: a floating point type without NaN.
-/

namespace Verif.Vec

variable {α : Type} [LinearOrder α] {n : ℕ}

/-! ## Code -/

/-- `SGNCOMPARE`, `compare.h:11`. -/
def sgn (a b : α) : ℤ := (if a > b then 1 else 0) - (if a < b then 1 else 0)

/-- The loop of `operator >` and `operator <`, `vector.h:1100-1101`: `for(int i = 0; i < N && !c; ++i) c = SGNCOMPARE(l.v[i], r.v[i])`. -/
def scan (l r : Fin n → α) : List (Fin n) → ℤ → ℤ
  | [], c => c
  | i :: is, c => if c = 0 then scan l r is (sgn (l i) (r i)) else c

/-- `operator >`, `vector.h:1100`. -/
def gt (l r : Fin n → α) : Bool := 0 < scan l r (List.finRange n) 0
/-- `operator <`, `vector.h:1101`. -/
def lt (l r : Fin n → α) : Bool := scan l r (List.finRange n) 0 < 0
/-- `operator >=`, `vector.h:1102`. -/
def ge (l r : Fin n → α) : Bool := !lt l r
/-- `operator <=`, `vector.h:1103`. -/
def le (l r : Fin n → α) : Bool := !gt l r
/-- `operator !=`, `vector.h:1096`. -/
def ne (l r : Fin n → α) : Bool := (List.finRange n).foldl (fun ret i => ret || decide (l i ≠ r i)) false
/-- `operator ==`, `vector.h:1097`. -/
def eq (l r : Fin n → α) : Bool := (List.finRange n).foldl (fun ret i => ret && decide (l i = r i)) true

/-- The comparisons with a scalar, `vector.h:1098-1099`, `:1104-1107`: `p` is the comparison of an element. -/
def all (p : α → Bool) (l : Fin n → α) : Bool := (List.finRange n).foldl (fun ret i => ret && p (l i)) true

/-- `operator ==` of matrices, `vector.h:1146`: the two loops return at the first difference. -/
def meq {m : ℕ} (l r : Fin m → Fin n → α) : Bool := (List.finRange m).all fun i => (List.finRange n).all fun j => decide (l i j = r i j)

/-! ## Proofs -/

theorem sgn_cases (a b : α) : (a < b ∧ sgn a b = -1) ∨ (a = b ∧ sgn a b = 0) ∨ (b < a ∧ sgn a b = 1) := by
  rcases lt_trichotomy a b with h | h | h
  · left; exact ⟨h, by rw [sgn, if_neg (not_lt.2 h.le), if_pos h]; rfl⟩
  · right; left; subst h; exact ⟨rfl, by simp [sgn]⟩
  · right; right; exact ⟨h, by rw [sgn, if_pos h, if_neg (not_lt.2 h.le)]; rfl⟩

theorem scan_ne (l r : Fin n → α) (is : List (Fin n)) (c : ℤ) (h : c ≠ 0) : scan l r is c = c := by
  cases is with
  | nil => rfl
  | cons i is => rw [scan, if_neg h]

/-- The first difference in a list of positions. -/
theorem scan_spec (l r : Fin n → α) (is : List (Fin n)) :
    ((∀ i ∈ is, l i = r i) ∧ scan l r is 0 = 0) ∨ ∃ a i b, is = a ++ i :: b ∧ (∀ j ∈ a, l j = r j) ∧ ((l i < r i ∧ scan l r is 0 = -1) ∨ (r i < l i ∧ scan l r is 0 = 1)) := by
  induction is with
  | nil => left; exact ⟨by simp, rfl⟩
  | cons i is ih =>
    rw [scan, if_pos rfl]
    rcases sgn_cases (l i) (r i) with ⟨h, e⟩ | ⟨h, e⟩ | ⟨h, e⟩
    · right
      rw [e, scan_ne _ _ _ _ (by decide)]
      exact ⟨[], i, is, rfl, by simp, Or.inl ⟨h, rfl⟩⟩
    · rw [e]
      rcases ih with ⟨h1, h2⟩ | ⟨a, k, b, h1, h2, h3⟩
      · left
        exact ⟨fun j hj => by rcases List.mem_cons.1 hj with rfl | hj; exacts [h, h1 j hj], h2⟩
      · right
        exact ⟨i :: a, k, b, by rw [h1]; rfl, fun j hj => by rcases List.mem_cons.1 hj with rfl | hj; exacts [h, h2 j hj], h3⟩
    · right
      rw [e, scan_ne _ _ _ _ (by decide)]
      exact ⟨[], i, is, rfl, by simp, Or.inr ⟨h, rfl⟩⟩

theorem finRange_split {a b : List (Fin n)} {i j : Fin n} (h : List.finRange n = a ++ i :: b) (hj : j < i) : j ∈ a := by
  have hs : (a ++ i :: b).Pairwise (· < ·) := by rw [← h]; exact List.pairwise_lt_finRange n
  have hm : j ∈ a ++ i :: b := by rw [← h]; exact List.mem_finRange j
  rcases List.mem_append.1 hm with hm | hm
  · exact hm
  · exfalso
    have h2 := (List.pairwise_append.1 hs).2.1
    rcases List.mem_cons.1 hm with rfl | hm
    · exact lt_irrefl _ hj
    · exact lt_asymm hj ((List.pairwise_cons.1 h2).1 j hm)

theorem scan_lex (l r : Fin n → α) :
    (l = r ∧ scan l r (List.finRange n) 0 = 0) ∨ (toLex l < toLex r ∧ scan l r (List.finRange n) 0 = -1) ∨ (toLex r < toLex l ∧ scan l r (List.finRange n) 0 = 1) := by
  rcases scan_spec l r (List.finRange n) with ⟨h1, h2⟩ | ⟨a, i, b, h1, h2, h3 | h3⟩
  · left; exact ⟨funext fun i => h1 i (List.mem_finRange i), h2⟩
  · right; left
    exact ⟨⟨i, fun j hj => h2 j (finRange_split h1 hj), h3.1⟩, h3.2⟩
  · right; right
    exact ⟨⟨i, fun j hj => (h2 j (finRange_split h1 hj)).symm, h3.1⟩, h3.2⟩

theorem foldl_and (p : Fin n → Bool) (L : List (Fin n)) (b : Bool) : L.foldl (fun ret i => ret && p i) b = (b && L.all p) := by
  induction L generalizing b with
  | nil => simp
  | cons i L ih => rw [List.foldl_cons, ih, List.all_cons, Bool.and_assoc]

theorem foldl_or (p : Fin n → Bool) (L : List (Fin n)) (b : Bool) : L.foldl (fun ret i => ret || p i) b = (b || L.any p) := by
  induction L generalizing b with
  | nil => simp
  | cons i L ih => rw [List.foldl_cons, ih, List.any_cons, Bool.or_assoc]

/-! ## The property -/

/-- The six comparisons are those of one linear order on vectors, the lexicographic one. -/
theorem C101_order (l r : Fin n → α) :
    (lt l r = true ↔ toLex l < toLex r) ∧ (gt l r = true ↔ toLex r < toLex l) ∧ (le l r = true ↔ toLex l ≤ toLex r) ∧ (ge l r = true ↔ toLex r ≤ toLex l) ∧
    (eq l r = true ↔ l = r) ∧ (ne l r = true ↔ l ≠ r) := by
  have irr : ∀ x : Lex (Fin n → α), ¬ x < x := fun x h => lt_irrefl x h
  have asy : ∀ x y : Lex (Fin n → α), x < y → ¬ y < x := fun x y h h' => lt_asymm h h'
  have nl : ∀ x y : Lex (Fin n → α), ¬ x < y ↔ y ≤ x := fun x y => not_lt
  have hlt : lt l r = true ↔ toLex l < toLex r := by
    rw [lt, decide_eq_true_iff]
    rcases scan_lex l r with ⟨h1, h2⟩ | ⟨h1, h2⟩ | ⟨h1, h2⟩
    · subst h1
      exact iff_of_false (by rw [h2]; decide) (irr _)
    · exact iff_of_true (by rw [h2]; decide) h1
    · exact iff_of_false (by rw [h2]; decide) (asy _ _ h1)
  have hgt : gt l r = true ↔ toLex r < toLex l := by
    rw [gt, decide_eq_true_iff]
    rcases scan_lex l r with ⟨h1, h2⟩ | ⟨h1, h2⟩ | ⟨h1, h2⟩
    · subst h1
      exact iff_of_false (by rw [h2]; decide) (irr _)
    · exact iff_of_false (by rw [h2]; decide) (asy _ _ h1)
    · exact iff_of_true (by rw [h2]; decide) h1
  refine ⟨hlt, hgt, ?_, ?_, ?_, ?_⟩
  · rw [le, Bool.not_eq_true', ← Bool.not_eq_true, hgt]
    exact nl _ _
  · rw [ge, Bool.not_eq_true', ← Bool.not_eq_true, hlt]
    exact nl _ _
  · rw [eq, foldl_and (fun i => decide (l i = r i))]
    simp only [Bool.true_and, List.all_eq_true, List.mem_finRange, decide_eq_true_eq, true_implies]
    exact funext_iff.symm
  · rw [ne, foldl_or (fun i => decide (l i ≠ r i))]
    simp only [Bool.false_or, List.any_eq_true, List.mem_finRange, decide_eq_true_eq, true_and]
    exact Function.ne_iff.symm

/-- Comparing with a scalar asks for the comparison of every element, and two matrices are equal if all of their elements are. -/
theorem C101_scalar (p : α → Bool) (l : Fin n → α) {m : ℕ} (x y : Fin m → Fin n → α) : (all p l = true ↔ ∀ i, p (l i) = true) ∧ (meq x y = true ↔ x = y) := by
  constructor
  · rw [all, foldl_and (fun i => p (l i))]
    simp
  · rw [meq]
    simp only [List.all_eq_true, List.mem_finRange, decide_eq_true_eq, true_implies]
    exact ⟨fun h => funext fun i => funext fun j => h i j, fun h i j => by rw [h]⟩

/-- Vectors that differ in two places, in opposite directions. -/
example : lt (![1, 2, 3] : Fin 3 → ℤ) ![1, 3, 0] = true ∧ gt (![1, 2, 3] : Fin 3 → ℤ) ![1, 3, 0] = false ∧ ne (![1, 2, 3] : Fin 3 → ℤ) ![1, 3, 0] = true := by
  decide

end Verif.Vec
