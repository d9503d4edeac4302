/-!
# Specification vocabulary for union-find and spanning forests

Independent of the model: `Conn us x y` is the equivalence closure of a list of pairs.
-/

namespace Verif.DSet

/-- `x` and `y` are connected by the pairs in `us`. -/
inductive Conn (us : List (Nat × Nat)) : Nat → Nat → Prop
  | refl (x : Nat) : Conn us x x
  | edge {a b : Nat} : (a, b) ∈ us → Conn us a b
  | symm {x y : Nat} : Conn us x y → Conn us y x
  | trans {x y z : Nat} : Conn us x y → Conn us y z → Conn us x z

/-- No pair of the list joins two points already connected by the others (a forest, multi-edges counted). -/
def Acyclic (us : List (Nat × Nat)) : Prop :=
  ∀ l₁ e l₂, us = l₁ ++ e :: l₂ → ¬ Conn (l₁ ++ l₂) e.1 e.2

end Verif.DSet
