/-!
# Operators of vectors and matrices by component (C171), `/repo/include/bss-util/vector.h:1065-1150`

The operators in place work on memory, as their operands may be the same object. The type of the components is any type with any operations; conversions from another type are part of the operation.
Two operators do not compile if they are used: the negative of a vector assigns to a constant (`vector.h:1106`), and `~` returns nothing (`vector.h:1153`).
-/

namespace Verif.Vec.Ops

variable {T : Type}

/-- Memory, by address in components. -/
abbrev Mem (T : Type) := Nat → T

def write (m : Mem T) (a : Nat) (x : T) : Mem T := fun b => if b = a then x else m b

/-- `for(int i = 0; i < N; ++i) l.v[i] op= r.v[i]` with `l` at `p` and `r` at `q`, `vector.h:1091-1094`. -/
def assign (op : T → T → T) (p q : Nat) : Nat → Mem T → Mem T
  | 0, m => m
  | n + 1, m => let m' := assign op p q n m; write m' (p + n) (op (m' (p + n)) (m' (q + n)))

/-- The same with a number, which is passed by value, `vector.h:1095-1098`. -/
def assignScalar (op : T → T → T) (p : Nat) (s : T) : Nat → Mem T → Mem T
  | 0, m => m
  | n + 1, m => let m' := assignScalar op p s n m; write m' (p + n) (op (m' (p + n)) s)

/-- Copying `N` components from `q` to `p`: the copy constructor. -/
def copy (p q : Nat) : Nat → Mem T → Mem T
  | 0, m => m
  | n + 1, m => let m' := copy p q n m; write m' (p + n) (m' (q + n))

/-- `Vector n(l); n op= r; return n`, `vector.h:1065-1068`, with the result at `d`. -/
def binary (op : T → T → T) (d p q n : Nat) (m : Mem T) : Mem T := assign op d q n (copy d p n m)

/-- `Vector n(l); n op= scalar; return n`, `vector.h:1069-1073` and `1078`. -/
def binaryScalar (op : T → T → T) (d p : Nat) (s : T) (n : Nat) (m : Mem T) : Mem T := assignScalar op d s n (copy d p n m)

/-- `ret(r); ret.v[i] = scalar op r.v[i]`, `vector.h:1074-1077` and `1079-1082`. -/
def scalarLeft (op : T → T → T) (d q : Nat) (s : T) (n : Nat) (m : Mem T) : Mem T :=
  let rec loop : Nat → Mem T → Mem T
    | 0, m => m
    | k + 1, m => let m' := loop k m; write m' (d + k) (op s (m' (q + k)))
  loop n (copy d q n m)

/-- The operators of matrices with two loops, `vector.h:1136-1143`: row `i` is at `p + i * n`. -/
def assignMatrix (op : T → T → T) (p q n : Nat) : Nat → Mem T → Mem T
  | 0, m => m
  | i + 1, m => assign op (p + i * n) (q + i * n) n (assignMatrix op p q n i m)

def assignMatrixScalar (op : T → T → T) (p : Nat) (s : T) (n : Nat) : Nat → Mem T → Mem T
  | 0, m => m
  | i + 1, m => assignScalar op (p + i * n) s n (assignMatrixScalar op p s n i m)

/-- Two objects of `n` components are the same, or have no component in common. -/
def Apart (p q n : Nat) : Prop := p = q ∨ p + n ≤ q ∨ q + n ≤ p

theorem assign_eq (op : T → T → T) {p q n : Nat} (h : Apart p q n) (m : Mem T) :
    assign op p q n m = fun a => if p ≤ a ∧ a < p + n then op (m a) (m (q + (a - p))) else m a := by
  have key : ∀ k ≤ n, assign op p q k m = fun a => if p ≤ a ∧ a < p + k then op (m a) (m (q + (a - p))) else m a := by
    intro k hk
    induction k with
    | zero => funext a; rw [if_neg (by omega)]; rfl
    | succ k ih =>
      funext a
      rw [assign, ih (by omega)]
      simp only [write]
      by_cases ha : a = p + k
      · subst ha
        have e1 : ¬ (p ≤ p + k ∧ p + k < p + k) := by omega
        have e2 : ¬ (p ≤ q + k ∧ q + k < p + k) := by
          rcases h with h | h | h <;> omega
        have e3 : p ≤ p + k ∧ p + k < p + (k + 1) := by omega
        rw [if_pos rfl, if_neg e1, if_neg e2, if_pos e3]
        congr 2
        omega
      · rw [if_neg ha]
        by_cases hb : p ≤ a ∧ a < p + k
        · rw [if_pos hb, if_pos (by omega)]
        · rw [if_neg hb, if_neg (by omega)]
  exact key n (Nat.le_refl n)

theorem assignScalar_eq (op : T → T → T) (p : Nat) (s : T) (n : Nat) (m : Mem T) :
    assignScalar op p s n m = fun a => if p ≤ a ∧ a < p + n then op (m a) s else m a := by
  induction n with
  | zero => funext a; rw [if_neg (by omega)]; rfl
  | succ k ih =>
    funext a
    rw [assignScalar, ih]
    simp only [write]
    by_cases ha : a = p + k
    · subst ha
      rw [if_pos rfl, if_neg (by omega), if_pos (by omega)]
    · rw [if_neg ha]
      by_cases hb : p ≤ a ∧ a < p + k
      · rw [if_pos hb, if_pos (by omega)]
      · rw [if_neg hb, if_neg (by omega)]

theorem copy_eq {p q n : Nat} (h : Apart p q n) (m : Mem T) : copy p q n m = fun a => if p ≤ a ∧ a < p + n then m (q + (a - p)) else m a := by
  have key : ∀ k, copy p q k m = assign (fun _ y => y) p q k m := by
    intro k
    induction k with
    | zero => rfl
    | succ k ih => rw [copy, assign, ih]
  rw [key, assign_eq _ h]

/-- C171: an operator in place changes each component of the left operand to the operation of the two old ones, and nothing else, also if both operands are the same object. -/
theorem C171_inplace (op : T → T → T) {p q n : Nat} (h : Apart p q n) (m : Mem T) :
    (∀ i < n, assign op p q n m (p + i) = op (m (p + i)) (m (q + i))) ∧ ∀ a, (a < p ∨ p + n ≤ a) → assign op p q n m a = m a := by
  rw [assign_eq op h]
  refine ⟨fun i hi => ?_, fun a ha => ?_⟩
  · dsimp only
    rw [if_pos (by omega)]
    congr 2
    omega
  · dsimp only
    rw [if_neg (by omega)]

example : Apart 3 3 2 ∧ assign (· + ·) 3 3 2 (fun a => a) 4 = 8 := ⟨Or.inl rfl, rfl⟩

/-- C171: likewise with a number, even if it was a component of the operand. -/
theorem C171_inplace_scalar (op : T → T → T) (p n j : Nat) (m : Mem T) :
    (∀ i < n, assignScalar op p (m j) n m (p + i) = op (m (p + i)) (m j)) ∧ ∀ a, (a < p ∨ p + n ≤ a) → assignScalar op p (m j) n m a = m a := by
  rw [assignScalar_eq]
  exact ⟨fun i hi => by dsimp only; rw [if_pos (by omega)], fun a ha => by dsimp only; rw [if_neg (by omega)]⟩

example : assignScalar (· / ·) 3 6 4 (fun a => a) 6 = 1 := rfl

/-- C171: the operators that return a new vector give the operation of the components, and leave their operands as they were. -/
theorem C171_binary (op : T → T → T) {d p q n : Nat} (hp : d + n ≤ p ∨ p + n ≤ d) (hq : d + n ≤ q ∨ q + n ≤ d) (s : T) (m : Mem T) :
    (∀ i < n, binary op d p q n m (d + i) = op (m (p + i)) (m (q + i)) ∧ binaryScalar op d p s n m (d + i) = op (m (p + i)) s ∧ scalarLeft op d q s n m (d + i) = op s (m (q + i))) ∧
    ∀ a, (a < d ∨ d + n ≤ a) → binary op d p q n m a = m a ∧ binaryScalar op d p s n m a = m a ∧ scalarLeft op d q s n m a = m a := by
  have hleft : ∀ (m : Mem T) k, k ≤ n → scalarLeft.loop op d q s k m = fun a => if d ≤ a ∧ a < d + k then op s (m (q + (a - d))) else m a := by
    intro m k hk
    have e : scalarLeft.loop op d q s k m = assign (fun _ y => op s y) d q k m := by
      induction k with
      | zero => rfl
      | succ k ih => rw [scalarLeft.loop, assign, ih (by omega)]
    rw [e, assign_eq _ (by right; omega)]
  have c1 := copy_eq (p := d) (q := p) (n := n) (Or.inr hp) m
  have c2 := copy_eq (p := d) (q := q) (n := n) (Or.inr hq) m
  unfold binary binaryScalar scalarLeft
  rw [c1, c2, assign_eq op (Or.inr hq), assignScalar_eq, hleft _ n (Nat.le_refl n)]
  refine ⟨fun i hi => ⟨?_, ?_, ?_⟩, fun a ha => ⟨?_, ?_, ?_⟩⟩
  · dsimp only
    rw [if_pos (by omega), if_pos (by omega), if_neg (by omega)]
    congr 2 <;> omega
  · dsimp only
    rw [if_pos (by omega), if_pos (by omega)]
    congr 2; omega
  · dsimp only
    rw [if_pos (by omega), if_neg (by omega)]
    congr 2; omega
  all_goals
    dsimp only
    rw [if_neg (by omega), if_neg (by omega)]

example : binary (· - ·) 10 3 6 2 (fun a => a * a) 11 = 16 - 49 ∧ scalarLeft (· - ·) 10 3 (20 : Nat) 2 (fun a => a) 11 = 16 := ⟨rfl, rfl⟩

theorem apart_rows {p q n k i : Nat} (h : Apart p q (k * n)) (hi : i < k) : Apart (p + i * n) (q + i * n) n := by
  rcases h with h | h | h
  · left; omega
  · right; left
    have : (i + 1) * n ≤ k * n := Nat.mul_le_mul_right n (by omega)
    rw [Nat.add_mul] at this
    omega
  · right; right
    have : (i + 1) * n ≤ k * n := Nat.mul_le_mul_right n (by omega)
    rw [Nat.add_mul] at this
    omega

/-- C171: the operators of matrices by component are those of vectors with as many components, whatever the numbers of rows and columns. -/
theorem C171_matrix (op : T → T → T) {p q k n : Nat} (h : Apart p q (k * n)) (s : T) (m : Mem T) :
    assignMatrix op p q n k m = assign op p q (k * n) m ∧ assignMatrixScalar op p s n k m = assignScalar op p s (k * n) m := by
  constructor
  · have key : ∀ j ≤ k, assignMatrix op p q n j m = fun a => if p ≤ a ∧ a < p + j * n then op (m a) (m (q + (a - p))) else m a := by
      intro j hj
      induction j with
      | zero => funext a; rw [if_neg (by omega)]; rfl
      | succ j ih =>
        rw [assignMatrix, ih (by omega), assign_eq op (apart_rows h (by omega))]
        funext a
        have hm : (j + 1) * n ≤ k * n := Nat.mul_le_mul_right n (by omega)
        have hs : (j + 1) * n = j * n + n := by rw [Nat.add_mul]; omega
        rw [hs] at hm ⊢
        generalize j * n = x at *
        generalize k * n = y at *
        by_cases h1 : p + x ≤ a ∧ a < p + x + n
        · rw [if_pos h1, if_neg (by omega), if_neg (by rcases h with h | h | h <;> omega), if_pos (by omega)]
          congr 2
          omega
        · rw [if_neg h1]
          by_cases h2 : p ≤ a ∧ a < p + x
          · rw [if_pos h2, if_pos (by omega)]
          · rw [if_neg h2, if_neg (by omega)]
    rw [key k (Nat.le_refl k), assign_eq op h]
  · rw [assignScalar_eq]
    clear h
    induction k with
    | zero => funext a; rw [if_neg (by omega)]; rfl
    | succ j ih =>
      rw [assignMatrixScalar, ih, assignScalar_eq]
      funext a
      have hs : (j + 1) * n = j * n + n := by rw [Nat.add_mul]; omega
      rw [hs]
      generalize j * n = x at *
      by_cases h1 : p + x ≤ a ∧ a < p + x + n
      · rw [if_pos h1, if_neg (by omega), if_pos (by omega)]
      · rw [if_neg h1]
        by_cases h2 : p ≤ a ∧ a < p + x
        · rw [if_pos h2, if_pos (by omega)]
        · rw [if_neg h2, if_neg (by omega)]

example : assignMatrix (· + ·) 0 6 3 2 (fun a => a) 4 = 14 := rfl

/-! ## Comparisons -/

/-- `ret = ret && l.v[i] rel r.v[i]` over all components, for `==` of two vectors, `vector.h:1109`. -/
def allRel (rel : T → T → Bool) (p q : Nat) (m : Mem T) (n : Nat) : Bool := (List.range n).foldl (fun ret i => ret && rel (m (p + i)) (m (q + i))) true

/-- `ret = ret || l.v[i] rel r.v[i]`, for `!=`, `vector.h:1108`. -/
def anyRel (rel : T → T → Bool) (p q : Nat) (m : Mem T) (n : Nat) : Bool := (List.range n).foldl (fun ret i => ret || rel (m (p + i)) (m (q + i))) false

/-- The comparisons of all components with a number, `vector.h:1111` and `1116-1119`. -/
def allScalar (rel : T → T → Bool) (p : Nat) (s : T) (m : Mem T) (n : Nat) : Bool := (List.range n).foldl (fun ret i => ret && rel (m (p + i)) s) true

def anyScalar (rel : T → T → Bool) (p : Nat) (s : T) (m : Mem T) (n : Nat) : Bool := (List.range n).foldl (fun ret i => ret || rel (m (p + i)) s) false

/-- `==` of matrices, with a return inside two loops, `vector.h:1145`. -/
def equalMatrix (ne : T → T → Bool) (p q : Nat) (m : Mem T) (rows n : Nat) : Bool :=
  let rec cols (i : Nat) : Nat → Bool
    | 0 => true
    | j + 1 => if cols i j then (if ne (m (p + i * n + j)) (m (q + i * n + j)) then false else true) else false
  let rec go : Nat → Bool
    | 0 => true
    | i + 1 => if go i then cols i n else false
  go rows

theorem fold_and (f : Nat → Bool) (n : Nat) : (List.range n).foldl (fun ret i => ret && f i) true = true ↔ ∀ i < n, f i = true := by
  induction n with
  | zero => simp
  | succ n ih =>
    rw [List.range_succ, List.foldl_append, List.foldl_cons, List.foldl_nil, Bool.and_eq_true, ih]
    constructor
    · rintro ⟨h1, h2⟩ i hi
      rcases Nat.lt_succ_iff_lt_or_eq.1 hi with h | rfl
      · exact h1 i h
      · exact h2
    · intro h
      exact ⟨fun i hi => h i (by omega), h n (by omega)⟩

theorem fold_or (f : Nat → Bool) (n : Nat) : (List.range n).foldl (fun ret i => ret || f i) false = true ↔ ∃ i < n, f i = true := by
  induction n with
  | zero => simp
  | succ n ih =>
    rw [List.range_succ, List.foldl_append, List.foldl_cons, List.foldl_nil, Bool.or_eq_true, ih]
    constructor
    · rintro (⟨i, h1, h2⟩ | h)
      · exact ⟨i, by omega, h2⟩
      · exact ⟨n, by omega, h⟩
    · rintro ⟨i, h1, h2⟩
      rcases Nat.lt_succ_iff_lt_or_eq.1 h1 with h | rfl
      · exact Or.inl ⟨i, h, h2⟩
      · exact Or.inr h2

/-- C171: `==` and the comparisons with a number hold exactly if they hold for all components, `!=` exactly if it does for one. -/
theorem C171_compare (rel : T → T → Bool) (p q : Nat) (s : T) (m : Mem T) (n : Nat) :
    (allRel rel p q m n = true ↔ ∀ i < n, rel (m (p + i)) (m (q + i)) = true) ∧ (anyRel rel p q m n = true ↔ ∃ i < n, rel (m (p + i)) (m (q + i)) = true) ∧
    (allScalar rel p s m n = true ↔ ∀ i < n, rel (m (p + i)) s = true) ∧ (anyScalar rel p s m n = true ↔ ∃ i < n, rel (m (p + i)) s = true) :=
  ⟨fold_and _ n, fold_or _ n, fold_and _ n, fold_or _ n⟩

/-- C171: matrices are equal exactly if no component differs from the one at the same place. -/
theorem C171_equal_matrix (ne : T → T → Bool) (p q : Nat) (m : Mem T) (rows n : Nat) :
    equalMatrix ne p q m rows n = true ↔ ∀ i < rows, ∀ j < n, ne (m (p + i * n + j)) (m (q + i * n + j)) = false := by
  have hc : ∀ i k, equalMatrix.cols ne p q m n i k = true ↔ ∀ j < k, ne (m (p + i * n + j)) (m (q + i * n + j)) = false := by
    intro i k
    induction k with
    | zero => simp [equalMatrix.cols]
    | succ k ih =>
      rw [equalMatrix.cols]
      constructor
      · intro h j hj
        split at h
        · next h1 =>
          split at h
          · cases h
          · next h2 =>
            rcases Nat.lt_succ_iff_lt_or_eq.1 hj with h3 | rfl
            · exact ih.1 h1 j h3
            · simpa using h2
        · cases h
      · intro h
        rw [if_pos (ih.2 fun j hj => h j (by omega)), h k (by omega)]
        rfl
  unfold equalMatrix
  induction rows with
  | zero => simp [equalMatrix.go]
  | succ k ih =>
    rw [equalMatrix.go]
    constructor
    · intro h i hi j hj
      split at h
      · next h1 =>
        rcases Nat.lt_succ_iff_lt_or_eq.1 hi with h3 | rfl
        · exact ih.1 h1 i h3 j hj
        · exact (hc i n).1 h j hj
      · cases h
    · intro h
      rw [if_pos (ih.2 fun i hi => h i (by omega))]
      exact (hc k n).2 fun j hj => h k (by omega) j hj

example : equalMatrix (· != ·) 0 4 (fun a => a % 4) 2 2 = true ∧ allScalar (fun a b => decide (a > b)) 1 0 (fun a => a) 3 = true := by decide

end Verif.Vec.Ops
