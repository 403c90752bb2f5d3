import Mathlib.LinearAlgebra.Matrix.Determinant.Basic
import Mathlib.LinearAlgebra.Matrix.Permanent
import Mathlib.Data.Real.Basic

/-!
# Expansion of permanents, and determinants bounded by permanents
-/

namespace Verif

open Matrix Equiv

theorem permanent_succ_column_zero {n : ℕ} (A : Matrix (Fin n.succ) (Fin n.succ) ℝ) :
    permanent A = ∑ i : Fin n.succ, A i 0 * permanent (A.submatrix i.succAbove Fin.succ) := by
  rw [Matrix.permanent, Finset.univ_perm_fin_succ, ← Finset.univ_product_univ]
  simp only [Finset.sum_map, Equiv.toEmbedding_apply, Finset.sum_product]
  refine Finset.sum_congr rfl fun i _ => Fin.cases ?_ (fun i => ?_) i
  · simp only [Fin.prod_univ_succ, Matrix.permanent, Finset.mul_sum, Equiv.Perm.decomposeFin_symm_apply_zero,
      Equiv.swap_self, Equiv.Perm.decomposeFin_symm_apply_succ, Fin.succAbove_zero, Equiv.coe_refl, id, Matrix.submatrix_apply]
  · rw [← permanent_permute_cols i.cycleRange (A.submatrix i.succ.succAbove Fin.succ), Matrix.permanent, Finset.mul_sum]
    refine Finset.sum_congr rfl fun σ _ => ?_
    simp only [Fin.prod_univ_succ, Fin.succAbove_cycleRange, Equiv.Perm.decomposeFin_symm_apply_zero, Equiv.Perm.decomposeFin_symm_apply_succ,
      Matrix.submatrix_apply, id]

/-- Expansion along the first row. -/
theorem permanent_succ_row_zero {n : ℕ} (A : Matrix (Fin n.succ) (Fin n.succ) ℝ) :
    permanent A = ∑ j : Fin n.succ, A 0 j * permanent (A.submatrix Fin.succ j.succAbove) := by
  rw [← permanent_transpose A, permanent_succ_column_zero]
  refine Finset.sum_congr rfl fun i _ => ?_
  rw [← permanent_transpose]
  simp only [transpose_apply, transpose_submatrix, transpose_transpose]

theorem permanent_abs_nonneg {n : ℕ} (A : Matrix (Fin n) (Fin n) ℝ) : 0 ≤ permanent (A.map abs) := by
  unfold permanent
  exact Finset.sum_nonneg fun σ _ => Finset.prod_nonneg fun i _ => by simp

theorem abs_det_le {n : ℕ} (A : Matrix (Fin n) (Fin n) ℝ) : |A.det| ≤ permanent (A.map abs) := by
  rw [Matrix.det_apply]
  refine (Finset.abs_sum_le_sum_abs _ _).trans (Finset.sum_le_sum fun σ _ => ?_)
  rw [Units.smul_def, zsmul_eq_mul, abs_mul, Finset.abs_prod]
  have : |((Perm.sign σ : ℤ) : ℝ)| = 1 := by
    rcases Int.units_eq_one_or (Perm.sign σ) with h | h <;> rw [h] <;> simp
  rw [this, one_mul]
  exact le_of_eq (Finset.prod_congr rfl fun i _ => by simp)

end Verif
