/-!
# Comparison functions

Every ordered container of bss-util takes a comparison function `char(*CFunc)(const T&, const T&)`
(`/repo/include/bss-util/compare.h:14-46`) whose *sign* is what the code looks at.  We model it as a
function to `Int`.  `CmpOrd` is the assumption the containers make of a user supplied comparison: it is a
total preorder.  `Verif/Compare` proves that the library's own comparison functions satisfy it.
-/

namespace Verif

/-- The comparison is a total preorder whose sign flips when the arguments are swapped.
(Assumption on user supplied comparison functions; library ones are proved to satisfy it.) -/
structure CmpOrd {α : Type _} (cmp : α → α → Int) : Prop where
  sym : ∀ a b, cmp a b < 0 ↔ 0 < cmp b a
  trans : ∀ a b c, cmp a b ≤ 0 → cmp b c ≤ 0 → cmp a c ≤ 0

namespace CmpOrd
variable {α : Type _} {cmp : α → α → Int} (h : CmpOrd cmp)
include h

theorem refl (a : α) : cmp a a = 0 := by
  have h1 := h.sym a a
  omega

theorem le_of_not_lt {a b : α} (hab : ¬ cmp a b < 0) : cmp b a ≤ 0 := by
  have h1 := h.sym a b
  omega

theorem ge_of_gt {a b : α} (hab : 0 < cmp a b) : cmp b a ≤ 0 := by
  have h1 := h.sym b a
  omega

theorem total (a b : α) : cmp a b ≤ 0 ∨ cmp b a ≤ 0 := by
  have h1 := h.sym a b
  omega

theorem swap_le {a b : α} : cmp a b ≤ 0 ↔ 0 ≤ cmp b a := by
  have h1 := h.sym b a
  omega

theorem swap_eq {a b : α} : cmp a b = 0 ↔ cmp b a = 0 := by
  have h1 := h.sym b a
  have h2 := h.sym a b
  omega

theorem lt_of_lt_of_le {a b c : α} (h1 : cmp a b < 0) (h2 : cmp b c ≤ 0) : cmp a c < 0 := by
  have h3 := h.sym a c
  have h4 := h.sym a b
  have h5 := h.trans b c a h2
  omega

theorem lt_of_le_of_lt {a b c : α} (h1 : cmp a b ≤ 0) (h2 : cmp b c < 0) : cmp a c < 0 := by
  have h3 := h.sym a c
  have h4 := h.sym b c
  have h5 := h.trans c a b
  omega

theorem lt_trans {a b c : α} (h1 : cmp a b < 0) (h2 : cmp b c < 0) : cmp a c < 0 :=
  h.lt_of_lt_of_le h1 (by omega)

theorem eq_trans {a b c : α} (h1 : cmp a b = 0) (h2 : cmp b c = 0) : cmp a c = 0 := by
  have h3 := h.trans a b c (by omega) (by omega)
  have h4 := h.trans c b a (by have := h.swap_eq.1 h2; omega) (by have := h.swap_eq.1 h1; omega)
  have h5 := h.sym a c
  omega

end CmpOrd

/-- The comparison of `Int`s used in examples: `SGNCOMPARE` at `/repo/include/bss-util/compare.h:11`. -/
def icmp (a b : Int) : Int := if a < b then -1 else if b < a then 1 else 0

theorem icmp_ord : CmpOrd icmp where
  sym a b := by unfold icmp; split <;> split <;> (try split) <;> (try split) <;> omega
  trans a b c := by unfold icmp; repeat' split <;> try omega

/-- `SGNCOMPARE` on naturals. -/
def ncmp (a b : Nat) : Int := if a < b then -1 else if b < a then 1 else 0

theorem ncmp_ord : CmpOrd ncmp where
  sym a b := by unfold ncmp; split <;> split <;> (try split) <;> (try split) <;> omega
  trans a b c := by unfold ncmp; repeat' split <;> try omega

end Verif
