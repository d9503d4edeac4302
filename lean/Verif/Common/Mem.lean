/-!
# Checked array access

Raw C++ arrays (`T* _array`) are modelled as lists; reading or writing outside the allocated range is
undefined behaviour and is the distinct outcome `none`.
-/

namespace Verif

/-- Checked read `a[i]`; `none` is an out-of-range access (UB). -/
def rd {α : Type _} (a : List α) (i : Nat) : Option α := a[i]?

/-- Checked write `a[i] = v`; `none` is an out-of-range access (UB). -/
def wr {α : Type _} (a : List α) (i : Nat) (v : α) : Option (List α) :=
  if i < a.length then some (a.set i v) else none

@[simp] theorem wr_eq_some {α : Type _} {a r : List α} {i : Nat} {v : α} :
    wr a i v = some r ↔ i < a.length ∧ r = a.set i v := by
  unfold wr
  by_cases h : i < a.length <;> simp [h, eq_comm]

theorem wr_of_lt {α : Type _} {a : List α} {i : Nat} {v : α} (h : i < a.length) :
    wr a i v = some (a.set i v) := by simp [h]

theorem rd_of_lt {α : Type _} {a : List α} {i : Nat} (h : i < a.length) :
    rd a i = some a[i] := by simp [rd, h]

/-- Moving a value from position `p` into the hole at `k` and putting `v` at `p` is a permutation of
putting `v` directly at `k`. -/
theorem perm_set_hole {α : Type _} {a : List α} {k p : Nat} {x v : α} (hk : k < a.length)
    (hp : a[p]? = some x) (hne : p ≠ k) : ((a.set k x).set p v).Perm (a.set k v) := by
  have hpl : p < a.length := by
    rcases Nat.lt_or_ge p a.length with h | h
    · exact h
    · simp [List.getElem?_eq_none h] at hp
  have := List.set_set_perm (as := a.set k v) (i := k) (j := p) (by simpa using hk) (by simpa using hpl)
  have hx : a[p] = x := by simpa [hpl] using hp
  simpa [List.getElem_set, hne, Ne.symm hne, hx] using this

end Verif
