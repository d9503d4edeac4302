/-!
# Specification vocabulary for heaps (independent of the model)
-/

namespace Verif.Heap.Spec

/-- `l` (an array in level order) is a max-heap: no entry exceeds the entry at `(i-1)/2`. -/
def IsHeap {α : Type _} (cmp : α → α → Int) (l : List α) : Prop :=
  ∀ i x y, 0 < i → l[i]? = some x → l[(i - 1) / 2]? = some y → cmp x y ≤ 0

/-- Public operations whose histories are considered. -/
inductive Op (α : Type _)
  | insert (v : α)
  | pop
  | set (i : Nat) (v : α)

/-- What an operation lets the caller observe. For `set`, `old` is what `Get(i)` would have returned just
before the call (`none` when the index is out of range, in which case `Set` returns false). -/
inductive Out (α : Type _)
  | unit
  | popped (v : α)
  | set (old : Option α)

/-- Abstract behaviour on the *bag* of held values (a list up to permutation). -/
inductive Step {α : Type _} (cmp : α → α → Int) : List α → Op α → Out α → List α → Prop
  | insert {s s'} (v) : s'.Perm (v :: s) → Step cmp s (.insert v) .unit s'
  | pop {s s'} (r) : (∀ x ∈ s, cmp x r ≤ 0) → s.Perm (r :: s') → Step cmp s .pop (.popped r) s'
  | setOk {s s' t} (i v old) : s.Perm (old :: t) → s'.Perm (v :: t) → Step cmp s (.set i v) (.set (some old)) s'
  | setFail {s s'} (i v) : s.length ≤ i → s'.Perm s → Step cmp s (.set i v) (.set none) s'

/-- A whole history of abstract steps. -/
inductive Run {α : Type _} (cmp : α → α → Int) : List α → List (Op α) → List (Out α) → List α → Prop
  | nil {s s'} : s'.Perm s → Run cmp s [] [] s'
  | cons {s s' s'' op o ops os} : Step cmp s op o s' → Run cmp s' ops os s'' →
      Run cmp s (op :: ops) (o :: os) s''

/-- The only precondition on a history: `Pop` is not called on an empty heap. `n` is the current length. -/
def Valid {α : Type _} : Nat → List (Op α) → Prop
  | _, [] => True
  | n, .insert _ :: ops => Valid (n + 1) ops
  | n, .pop :: ops => 0 < n ∧ Valid (n - 1) ops
  | n, .set _ _ :: ops => Valid n ops

end Verif.Heap.Spec
