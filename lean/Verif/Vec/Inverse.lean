import Verif.Vec.Matrix

/-!
# Determinants and inverses (C97)
-/

namespace Verif.Vec

variable {K : Type} [Field K]

theorem det_four (x : Matrix (Fin 4) (Fin 4) K) : x.det = det4 x := by
  rw [Matrix.det_succ_row_zero]
  simp [Fin.sum_univ_succ, Matrix.det_fin_three, det4, det3, Fin.succAbove, Matrix.submatrix]
  ring

theorem det4s_eq (x : Matrix (Fin 4) (Fin 4) K) : det4s x = det4 x := by
  simp [det4s, det4, det3, ror, movehl, single, shuf, lane]
  ring

/-- The determinants of 2, 3 and 4 rows, with and without SSE, are the determinant. -/
theorem C97_determinant (x : Matrix (Fin 2) (Fin 2) K) (y : Matrix (Fin 3) (Fin 3) K) (z : Matrix (Fin 4) (Fin 4) K) :
    det2 x = x.det ∧ md3 det3 y = y.det ∧ md3 det3s y = y.det ∧ det4 z = z.det ∧ det4s z = z.det := by
  refine ⟨(Matrix.det_fin_two x).symm, ?_, ?_, (det_four z).symm, (det4s_eq z).trans (det_four z).symm⟩
  · rw [Matrix.det_fin_three, md3, det3]; ring
  · rw [Matrix.det_fin_three]
    simp [md3, det3s, shuf4, Matrix.vecHead]
    ring

theorem cofactor_mul (x : Matrix (Fin 4) (Fin 4) K) : x * rows (cofactors (transposed x)) = det4 x • (1 : Matrix (Fin 4) (Fin 4) K) := by
  ext i j
  fin_cases i <;> fin_cases j <;> simp [Matrix.mul_apply, Fin.sum_univ_succ, rows, cofactors, transposed, det4, det3] <;> ring

theorem inv4_eq (x : Matrix (Fin 4) (Fin 4) K) : inv4 x = (1 / det4 x) • rows (cofactors (transposed x)) := by
  have hd : transposed x 0 * cofactors (transposed x) 0 + transposed x 1 * cofactors (transposed x) 1 + transposed x 2 * cofactors (transposed x) 2 + transposed x 3 * cofactors (transposed x) 3 = det4 x := by
    simp [cofactors, transposed, det4, det3]
    ring
  rw [inv4, hd]
  ext i j
  fin_cases i <;> fin_cases j <;> simp [rows, mul_comm]

theorem inv4s_eq (x : Matrix (Fin 4) (Fin 4) K) : inv4s x = inv4 x := by
  have hd : (x 1 1 * x 0 0 - x 0 1 * x 1 0) * (x 3 3 * x 2 2 - x 2 3 * x 3 2) + (x 1 3 * x 0 2 - x 0 3 * x 1 2) * (x 3 1 * x 2 0 - x 2 1 * x 3 0) -
      ((x 3 3 * x 2 0 - x 2 3 * x 3 0) * (x 1 1 * x 0 2 - x 0 1 * x 1 2) + (x 3 3 * x 2 1 - x 2 3 * x 3 1) * (x 0 0 * x 1 2 - x 1 0 * x 0 2) +
        ((x 2 2 * x 3 0 - x 3 2 * x 2 0) * (x 1 1 * x 0 3 - x 0 1 * x 1 3) + (x 2 2 * x 3 1 - x 3 2 * x 2 1) * (x 0 0 * x 1 3 - x 1 0 * x 0 3))) = det4 x := by
    rw [det4, det3, det3, det3, det3]
    ring
  rw [inv4_eq]
  ext i j
  fin_cases i <;> fin_cases j <;> simp [inv4s, movelh, movehl, shuf, lane, single, rows, cofactors, transposed, Matrix.vecHead, Matrix.vecTail]
  all_goals
    rw [hd]
    ring

/-- `Inverse` gives the inverse of every matrix of 2, 3 or 4 rows whose determinant is not zero, with and without SSE. -/
theorem C97_inverse (x : Matrix (Fin 2) (Fin 2) K) (y : Matrix (Fin 3) (Fin 3) K) (z : Matrix (Fin 4) (Fin 4) K) :
    (x.det ≠ 0 → x * inv2 x = 1 ∧ inv2 x * x = 1) ∧ (y.det ≠ 0 → (y * inv3 det3 y = 1 ∧ inv3 det3 y * y = 1) ∧ y * inv3 det3s y = 1 ∧ inv3 det3s y * y = 1) ∧
    (z.det ≠ 0 → (z * inv4 z = 1 ∧ inv4 z * z = 1) ∧ z * inv4s z = 1 ∧ inv4s z * z = 1) := by
  obtain ⟨d2, d3, d3s, d4, -⟩ := C97_determinant x y z
  refine ⟨fun h => ?_, fun h => ?_, fun h => ?_⟩
  · have h1 : x * inv2 x = 1 := by
      rw [← d2] at h
      have h' := h
      rw [det2] at h'
      ext i j
      fin_cases i <;> fin_cases j <;> simp [Matrix.mul_apply, Fin.sum_univ_succ, inv2] <;> field_simp <;> rw [det2] <;> ring
    exact ⟨h1, mul_eq_one_comm.1 h1⟩
  · have h1 : y * inv3 det3 y = 1 := by
      rw [← d3] at h
      ext i j
      fin_cases i <;> fin_cases j <;> simp [Matrix.mul_apply, Fin.sum_univ_succ, inv3] <;> field_simp <;> simp only [md3, det3] <;> ring
    have h2 : inv3 det3s y = inv3 det3 y := by
      simp only [inv3, d3, d3s]
    rw [h2]
    exact ⟨⟨h1, mul_eq_one_comm.1 h1⟩, h1, mul_eq_one_comm.1 h1⟩
  · have h1 : z * inv4 z = 1 := by
      rw [← d4] at h
      rw [inv4_eq, Matrix.mul_smul, cofactor_mul, smul_smul, one_div, inv_mul_cancel₀ h, one_smul]
    rw [inv4s_eq]
    exact ⟨⟨h1, mul_eq_one_comm.1 h1⟩, h1, mul_eq_one_comm.1 h1⟩

/-- Matrices that are not triangular, with determinants 5, 3 and -1. -/
example : (!![2, 1; 1, 3] : Matrix (Fin 2) (Fin 2) ℚ).det ≠ 0 ∧ (!![1, 2, 0; 0, 1, 1; 1, 0, 1] : Matrix (Fin 3) (Fin 3) ℚ).det ≠ 0 ∧
    (!![0, 1, 0, 2; 1, 0, 3, 0; 0, 0, 1, 1; 0, 0, 0, 1] : Matrix (Fin 4) (Fin 4) ℚ).det ≠ 0 := by
  refine ⟨?_, ?_, ?_⟩
  · rw [Matrix.det_fin_two]; simp; norm_num
  · rw [Matrix.det_fin_three]; simp; norm_num
  · rw [det_four, det4, det3, det3, det3, det3]; simp

end Verif.Vec
