import Verif.Vec.Matrix

/-!
# Products and transposes (C98)
-/

namespace Verif.Vec

variable {K : Type} [Field K]

/-! ## Code -/

/-- A two-dimensional array, `v[M][N]`, `vector.h:855`. -/
abbrev Arr (m n : ℕ) (K : Type) := Fin m → Fin n → K

/-- An entry of the product in the general branch of `MatrixMultiply`, `vector.h:418-424`. -/
def entry {m n p : ℕ} (l : Matrix (Fin m) (Fin (n + 1)) K) (r : Matrix (Fin (n + 1)) (Fin p) K) (i : Fin m) (j : Fin p) : K :=
  (List.finRange n).foldl (fun acc k => acc + l i k.succ * r k.succ j) (l i 0 * r 0 j)

/-- The two loops that fill the local array, `vector.h:414-426`, and the two that copy it, `:428-430`: each assigns all entries of a row, row by row. -/
def fill {m p : ℕ} (out : Arr m p K) (e : Fin m → Fin p → K) : Arr m p K :=
  (List.finRange m).foldl (fun o i => (List.finRange p).foldl (fun o j => Function.update o i (Function.update (o i) j (e i j))) o) out

/-- The general branch of `MatrixMultiply`, `vector.h:411-431`; `tmp` is the local array before the loops, `out` the destination. -/
def multiply {m n p : ℕ} (l : Matrix (Fin m) (Fin (n + 1)) K) (r : Matrix (Fin (n + 1)) (Fin p) K) (tmp out : Arr m p K) : Arr m p K :=
  fill out (fill tmp (entry l r))

/-- A row in the SSE branch, `vector.h:401`, for the row `v` of the left matrix; `a` to `d` are the rows of the right one. -/
def sseRow (v a b c d : Reg K) : Reg K := fun j => a j * v 0 + b j * v 1 + c j * v 2 + d j * v 3

/-- The SSE branch, `vector.h:387-409`, if the destination is other memory: row by row. -/
def sseMultiply {m : ℕ} (l : Matrix (Fin m) (Fin 4) K) (r : Matrix (Fin 4) (Fin 4) K) (out : Arr m 4 K) : Arr m 4 K :=
  (List.finRange m).foldl (fun o i => Function.update o i (sseRow (l i) (r 0) (r 1) (r 2) (r 3))) out

/-- The SSE branch if the destination is the left matrix: the rows are read from the memory that is written. The right matrix is in registers, so that it may be the same memory as well. -/
def sseInPlace {m : ℕ} (l : Matrix (Fin m) (Fin 4) K) (r : Matrix (Fin 4) (Fin 4) K) : Arr m 4 K :=
  (List.finRange m).foldl (fun o i => Function.update o i (sseRow (o i) (r 0) (r 1) (r 2) (r 3))) l

/-- `MatrixMultiply1x4`, `vector.h:378-382`. -/
def multiply1x4 (l : Reg K) (r : Matrix (Fin 4) (Fin 4) K) : Reg K := fun j => r 0 j * l 0 + r 1 j * l 1 + r 2 j * l 2 + r 3 j * l 3

/-- `Matrix::Transpose`, `vector.h:831-836`. -/
def transpose {m n : ℕ} (x : Matrix (Fin m) (Fin n) K) (out : Arr n m K) : Arr n m K :=
  (List.finRange m).foldl (fun o i => (List.finRange n).foldl (fun o j => Function.update o j (Function.update (o j) i (x i j))) o) out

/-- `Matrix::Identity`, `vector.h:838-843`. -/
def identity (n : ℕ) : Arr n n K := (List.finRange n).foldl (fun o i => Function.update o i (Function.update (o i) i 1)) (fun _ _ => 0)

/-! ## Proofs -/

theorem foldl_row {m p : ℕ} (e : Fin p → K) (i : Fin m) (L : List (Fin p)) (o : Arr m p K) (i' : Fin m) (j' : Fin p) :
    (L.foldl (fun o j => Function.update o i (Function.update (o i) j (e j))) o) i' j' = if i' = i ∧ j' ∈ L then e j' else o i' j' := by
  induction L generalizing o with
  | nil => simp
  | cons j L ih =>
    rw [List.foldl_cons, ih]
    by_cases h1 : i' = i
    · subst h1
      by_cases h2 : j' ∈ L
      · simp [h2]
      · by_cases h3 : j' = j
        · subst h3; simp [h2]
        · simp [h2, h3]
    · simp [h1]

theorem fill_eq {m p : ℕ} (out : Arr m p K) (e : Fin m → Fin p → K) : fill out e = e := by
  have h : ∀ (L : List (Fin m)) (o : Arr m p K) (i' : Fin m) (j' : Fin p),
      (L.foldl (fun o i => (List.finRange p).foldl (fun o j => Function.update o i (Function.update (o i) j (e i j))) o) o) i' j' = if i' ∈ L then e i' j' else o i' j' := by
    intro L
    induction L with
    | nil => intro o i' j'; simp
    | cons i L ih =>
      intro o i' j'
      rw [List.foldl_cons, ih, foldl_row]
      by_cases h1 : i' ∈ L
      · simp [h1]
      · by_cases h2 : i' = i
        · subst h2; simp [h1]
        · simp [h1, h2]
  funext i j
  rw [fill, h, if_pos (List.mem_finRange i)]

theorem foldl_sum {n : ℕ} (f : Fin n → K) (a : K) : (List.finRange n).foldl (fun acc k => acc + f k) a = a + ∑ k, f k := by
  have h : ∀ (L : List (Fin n)) (a : K), L.foldl (fun acc k => acc + f k) a = a + (L.map f).sum := by
    intro L
    induction L with
    | nil => intro a; simp
    | cons k L ih => intro a; rw [List.foldl_cons, ih, List.map_cons, List.sum_cons, add_assoc]
  rw [h, Fin.sum_univ_def]

theorem entry_eq {m n p : ℕ} (l : Matrix (Fin m) (Fin (n + 1)) K) (r : Matrix (Fin (n + 1)) (Fin p) K) (i : Fin m) (j : Fin p) : entry l r i j = (l * r) i j := by
  rw [entry, foldl_sum (fun k => l i k.succ * r k.succ j), Matrix.mul_apply, Fin.sum_univ_succ]

theorem foldl_update {m : ℕ} {α : Type} (f : (Fin m → α) → Fin m → α) (hf : ∀ o o' i, o i = o' i → f o i = f o' i) {L : List (Fin m)} (hn : L.Nodup) (o : Fin m → α) (i : Fin m) :
    (L.foldl (fun o i => Function.update o i (f o i)) o) i = if i ∈ L then f o i else o i := by
  induction L generalizing o with
  | nil => simp
  | cons k L ih =>
    rw [List.nodup_cons] at hn
    rw [List.foldl_cons, ih hn.2]
    by_cases h1 : i ∈ L
    · have hne : i ≠ k := fun e => hn.1 (e ▸ h1)
      rw [if_pos h1, if_pos (List.mem_cons_of_mem _ h1)]
      exact hf _ _ _ (Function.update_of_ne hne _ _)
    · rw [if_neg h1]
      by_cases h2 : i = k
      · subst h2; rw [if_pos List.mem_cons_self, Function.update_self]
      · rw [if_neg (by rw [List.mem_cons]; rintro (h | h); exacts [h2 h, h1 h]), Function.update_of_ne h2]

theorem sseRow_eq {m : ℕ} (l : Matrix (Fin m) (Fin 4) K) (r : Matrix (Fin 4) (Fin 4) K) (i : Fin m) : sseRow (l i) (r 0) (r 1) (r 2) (r 3) = (l * r) i := by
  funext j
  rw [sseRow, Matrix.mul_apply]
  simp only [Fin.sum_univ_four]
  ring

/-! ## The property -/

/-- All ways of multiplying give the product of the matrices, whatever was in the destination, also if the destination is one of the operands. -/
theorem C98_product {m n p : ℕ} (l : Matrix (Fin m) (Fin (n + 1)) K) (r : Matrix (Fin (n + 1)) (Fin p) K) (tmp out : Arr m p K) (l4 : Matrix (Fin m) (Fin 4) K) (out4 : Arr m 4 K)
    (r4 : Matrix (Fin 4) (Fin 4) K) (v : Reg K) :
    multiply l r tmp out = l * r ∧ sseMultiply l4 r4 out4 = l4 * r4 ∧ sseInPlace l4 r4 = l4 * r4 ∧ multiply1x4 v r4 = Matrix.vecMul v r4 := by
  refine ⟨?_, ?_, ?_, ?_⟩
  · rw [multiply, fill_eq, fill_eq]
    funext i j
    exact entry_eq l r i j
  · funext i
    rw [sseMultiply, foldl_update (fun _ i => sseRow (l4 i) (r4 0) (r4 1) (r4 2) (r4 3)) (fun _ _ _ _ => rfl) (List.nodup_finRange m), if_pos (List.mem_finRange i), sseRow_eq]
  · funext i
    refine (foldl_update (α := Reg K) (fun o i => sseRow (o i) (r4 0) (r4 1) (r4 2) (r4 3)) (fun o o' i h => by rw [h]) (List.nodup_finRange m) l4 i).trans ?_
    rw [if_pos (List.mem_finRange i), sseRow_eq]
  · funext j
    rw [multiply1x4, Matrix.vecMul, dotProduct]
    simp only [Fin.sum_univ_four]
    ring

theorem foldl_col {m n : ℕ} (e : Fin n → K) (i : Fin m) (L : List (Fin n)) (o : Arr n m K) (j' : Fin n) (i' : Fin m) :
    (L.foldl (fun o j => Function.update o j (Function.update (o j) i (e j))) o) j' i' = if i' = i ∧ j' ∈ L then e j' else o j' i' := by
  induction L generalizing o with
  | nil => simp
  | cons j L ih =>
    rw [List.foldl_cons, ih]
    by_cases h2 : j' ∈ L
    · by_cases h1 : i' = i
      · simp [h1, h2]
      · by_cases h3 : j' = j
        · subst h3; simp [h1]
        · simp [h1, h3]
    · by_cases h3 : j' = j
      · subst h3
        by_cases h1 : i' = i
        · subst h1; simp [h2]
        · simp [h1]
      · simp [h2, h3]

/-- `Transpose` gives the transpose, whatever was in the destination, and `Identity` the identity. -/
theorem C98_transpose {m n : ℕ} (x : Matrix (Fin m) (Fin n) K) (out : Arr n m K) : transpose x out = x.transpose ∧ identity n = (1 : Matrix (Fin n) (Fin n) K) := by
  constructor
  · have h : ∀ (L : List (Fin m)) (o : Arr n m K) (j' : Fin n) (i' : Fin m),
        (L.foldl (fun o i => (List.finRange n).foldl (fun o j => Function.update o j (Function.update (o j) i (x i j))) o) o) j' i' = if i' ∈ L then x i' j' else o j' i' := by
      intro L
      induction L with
      | nil => intro o j' i'; simp
      | cons i L ih =>
        intro o j' i'
        rw [List.foldl_cons, ih, foldl_col]
        by_cases h1 : i' ∈ L
        · simp [h1]
        · by_cases h2 : i' = i
          · subst h2; simp [h1]
          · simp [h1, h2]
    funext j i
    rw [transpose, h, if_pos (List.mem_finRange i)]
    rfl
  · funext i
    rw [identity, foldl_update (fun (o : Fin n → Fin n → K) i => Function.update (o i) i 1) (fun o o' i h => by rw [h]) (List.nodup_finRange n), if_pos (List.mem_finRange i)]
    funext j
    refine Eq.trans ?_ (Matrix.one_apply (n := Fin n) (α := K) (i := i) (j := j)).symm
    by_cases h : j = i
    · subst h; simp
    · simp [h, Ne.symm h]

/-- A product of matrices that are not square. -/
example : multiply (!![1, 2; 3, 4; 5, 6] : Matrix (Fin 3) (Fin 2) ℚ) !![1, 0, 2; 0, 1, 3] 0 0 = !![1, 2, 8; 3, 4, 18; 5, 6, 28] := by
  rw [(C98_product _ _ _ _ (0 : Matrix (Fin 3) (Fin 4) ℚ) 0 0 0).1]
  ext i j
  fin_cases i <;> fin_cases j <;> simp [Matrix.mul_apply, Fin.sum_univ_succ] <;> norm_num

end Verif.Vec
