import Verif.Model.Calibration
import Verif.Props.Fusion5
import Verif.Props.Stat4

/-!
# C67: sensor corrections and rotations
-/

namespace Verif

open Quaternion Matrix Out

variable {n : ℕ}

/-- A column of numbers as a matrix. -/
def colOf (x : Fin n → ℝ) : Matrix (Fin n) (Fin 1) ℝ := Matrix.of fun i _ => x i

theorem colOf_data (x : Fin n → ℝ) : (mat (colOf x) []).data = arr x [] := by
  rw [mat_col_data]
  simp [arr, colOf]

theorem colOf_mul (K : Matrix (Fin m) (Fin n) ℝ) (x : Fin n → ℝ) : K * colOf x = colOf (K *ᵥ x) := by
  ext i j
  simp [colOf, Matrix.mul_apply, Matrix.mulVec, dotProduct]

theorem mtxFromArr_col (junk : ℕ → XR) (x : Fin n → ℝ) (t : List XR) :
    mtxFromArr (Mtx.uninit junk n 1) (arr x t) = ok (0, mat (colOf x) []) := by
  obtain ⟨A, hA⟩ := uninit_eq junk n 1
  rw [hA, mtx_from_arr_correct _ _ _ (by simp [arr])]
  congr 3
  ext i j
  simp [colOf, arr]

theorem vecFromArr_vec (z : Fin n → XR) (t : List XR) (x : Fin n → ℝ) (u : List XR) :
    vecFromArr (vecOf z t) (arr x u) = ok (0, vec x t) := by
  rw [vec_from_arr_correct _ _ (vecOf_wf _ _) (by simp [arr])]
  congr 2
  simp only [vecOf_sz, vec]
  rw [show (vecOf z t).data.drop n = t from vecOf_drop z t]
  congr 1
  simp only [arr]
  rw [List.take_append_of_le_length (by simp), List.take_of_length_le (by simp)]

/-- C67. The corrected scalar is `k * (d + b)`. -/
theorem cal_corr_scalar_correct (d k b : ℝ) : calCorrScalar (XR.fin d) (XR.fin k) (XR.fin b) = (0, XR.fin (k * (d + b))) := by
  simp [calCorrScalar]

/-- C67. A reading distorted by a scale `s` and an offset `o` is recovered with `k` the reciprocal of the scale and `b` the negated offset. -/
theorem cal_corr_scalar_recovers (x s o : ℝ) (hs : s ≠ 0) :
    calCorrScalar (XR.fin (s * x + o)) (XR.fin s⁻¹) (XR.fin (-o)) = (0, XR.fin x) := by
  rw [cal_corr_scalar_correct]
  congr 2
  field_simp
  ring

example : calCorrScalar (XR.fin (2.5 * 7 + 1)) (XR.fin 2.5⁻¹) (XR.fin (-1)) = (0, XR.fin 7) := cal_corr_scalar_recovers 7 2.5 1 (by norm_num)

/-- C67. The corrected vector is `K (v + b)`, in every dimension; nothing else of the output is touched. -/
theorem cal_corr_vec_correct (junk : ℕ → XR) (v b : Fin (n + 1) → ℝ) (K : Matrix (Fin (n + 1)) (Fin (n + 1)) ℝ) (z : Fin (n + 1) → XR)
    (s t u w : List XR) :
    calCorrVec junk (vec v s) (mat K t) (vec b u) (vecOf z w) = ok (0, vec (K *ᵥ (v + b)) w) := by
  unfold calCorrVec
  rw [if_neg (by simp), if_neg (by simp), vec_sz, vecUninit_eq, vecAdd_vec, ok_bind]
  simp only
  rw [vec_data, mtxFromArr_col, ok_bind]
  simp only
  obtain ⟨B, hB⟩ := uninit_eq junk (n + 1) 1
  rw [hB, mtx_mult_correct, ok_bind]
  simp only
  rw [colOf_mul, colOf_data, vecFromArr_vec, ok_bind]
  rfl

/-- C67. A reading distorted by an invertible matrix `D` and an offset `o` is recovered with `K` the inverse of `D` and `b` the negated
offset. -/
theorem cal_corr_vec_recovers (junk : ℕ → XR) (x o : Fin (n + 1) → ℝ) (D K : Matrix (Fin (n + 1)) (Fin (n + 1)) ℝ) (h : K * D = 1)
    (z : Fin (n + 1) → XR) (s t u w : List XR) :
    calCorrVec junk (vec (D *ᵥ x + o) s) (mat K t) (vec (-o) u) (vecOf z w) = ok (0, vec x w) := by
  rw [cal_corr_vec_correct, add_neg_cancel_right, Matrix.mulVec_mulVec, h, Matrix.one_mulVec]

example : calCorrVec (fun _ => XR.nan) (vec (!![2, 1; 0, 4] *ᵥ ![3, 5] + ![-1, 7] : Fin 2 → ℝ) [])
    (mat (!![1/2, -1/8; 0, 1/4] : Matrix (Fin 2) (Fin 2) ℝ) []) (vec (-![-1, 7]) []) (vecOf ![XR.nan, XR.nan] []) = ok (0, vec ![3, 5] []) := by
  refine cal_corr_vec_recovers (n := 1) _ _ _ _ _ ?_ _ _ _ _ _
  ext i j
  fin_cases i <;> fin_cases j <;> simp [Matrix.mul_apply, Fin.sum_univ_two]; norm_num

/-- C67. Sizes that do not agree are refused; nothing is written. For every scalar type. -/
theorem cal_corr_vec_rejects {R : Type} [CReal R] (junk : ℕ → R) (v b o : Vec R) (K : Mtx R)
    (h : v.sz ≠ o.sz ∨ v.sz ≠ K.rows ∨ v.sz ≠ K.cols ∨ v.sz ≠ b.sz) : calCorrVec junk v K b o = ok (-EINVAL, o) := by
  unfold calCorrVec
  rw [if_pos h]

example : calCorrVec (fun _ => XR.nan) (vec ![1, 2] []) (mat (1 : Matrix (Fin 3) (Fin 3) ℝ) []) (vec ![1, 2] []) (vec ![0, 0] []) =
    ok (-EINVAL, vec ![0, 0] []) := cal_corr_vec_rejects _ _ _ _ _ (by simp)

/-- C67. `zsl_fus_cal_rot_mtx` gives the product of the matrix and the vector; nothing else of the output is touched. -/
theorem cal_rot_mtx_correct (junk : ℕ → XR) (v : V3) (M : Matrix (Fin 3) (Fin 3) ℝ) (z : Fin 3 → XR) (s t w : List XR) :
    calRotMtx junk (vec v s) (mat M t) (vecOf z w) = ok (0, vec (M *ᵥ v) w) := by
  unfold calRotMtx
  rw [if_neg (by simp), vec_data, mtxFromArr_col, ok_bind]
  simp only
  obtain ⟨B, hB⟩ := uninit_eq junk 3 1
  rw [hB, mtx_mult_correct, ok_bind]
  simp only
  rw [colOf_mul, colOf_data, vecFromArr_vec, ok_bind]
  rfl

/-- C67. `zsl_fus_cal_rot_axis_angle` turns the vector about the axis `a`, which may have any length from `1e-6` up, by the angle `b`
(Rodrigues' formula). -/
theorem cal_rot_axis_angle_correct (junk : ℕ → XR) (v a : V3) (b : ℝ) (ha : 1e-6 ≤ len a) (z : Fin 3 → XR) (s t w : List XR) :
    ∃ k : V3, k ⬝ᵥ k = 1 ∧ a = len a • k ∧
      calRotAxisAngle junk (vec v s) (vec a t) (XR.fin b) (vecOf z w) =
        ok (0, vec (Real.cos b • v + Real.sin b • (k ⨯₃ v) + ((1 - Real.cos b) * (k ⬝ᵥ v)) • k) w) := by
  obtain ⟨k, hk, hak, hq, hn⟩ := quat_from_axis_angle_correct junk a t b (quatJunk junk) ha
  refine ⟨k, hk, hak, ?_⟩
  unfold calRotAxisAngle
  rw [if_neg (by simp), hq, ok_bind]
  simp only
  obtain ⟨B, hB⟩ := uninit_eq junk 3 3
  rw [hB, quatToRotMtx_quat, ok_bind]
  simp only
  rw [cal_rot_mtx_correct, ok_bind]
  simp only [pure_eq]
  congr 3
  have hs : Real.sin b = 2 * Real.sin (b / 2) * Real.cos (b / 2) := by rw [← Real.sin_two_mul]; congr 1; ring
  have hc : Real.cos b = 1 - 2 * Real.sin (b / 2) ^ 2 := by
    have := Real.cos_sq' (b / 2)
    have h2 := Real.cos_two_mul (b / 2)
    rw [show 2 * (b / 2) = b by ring] at h2
    linarith
  have hk' : k 0 ^ 2 + k 1 ^ 2 + k 2 ^ 2 = 1 := by
    rw [dotProduct, Fin.sum_univ_three] at hk
    linarith
  rw [hs, hc]
  generalize Real.sin (b / 2) = S
  generalize Real.cos (b / 2) = C
  ext i
  fin_cases i <;>
    simp [rotOf, Matrix.mulVec, dotProduct, Fin.sum_univ_three, cross_apply, Matrix.vecHead, Matrix.vecTail]
  · linear_combination (-2 * S ^ 2 * v 0) * hk'
  · linear_combination (-2 * S ^ 2 * v 1) * hk'
  · linear_combination (-2 * S ^ 2 * v 2) * hk'

/-- C67. With an axis shorter than `1e-6` the rotation is the identity. -/
theorem cal_rot_axis_angle_zero (junk : ℕ → XR) (v a : V3) (b : ℝ) (ha : len a < 1e-6) (z : Fin 3 → XR) (s t w : List XR) :
    calRotAxisAngle junk (vec v s) (vec a t) (XR.fin b) (vecOf z w) = ok (0, vec v w) := by
  unfold calRotAxisAngle
  rw [if_neg (by simp), quat_from_axis_angle_zero _ _ _ _ _ ha, ok_bind]
  simp only
  obtain ⟨B, hB⟩ := uninit_eq junk 3 3
  rw [hB, quatToRotMtx_quat, ok_bind]
  simp only
  rw [cal_rot_mtx_correct, ok_bind]
  have : rotOf 0 = 1 := by
    ext i j
    fin_cases i <;> fin_cases j <;> simp [rotOf]
  rw [this, Matrix.one_mulVec]
  rfl

example : ∃ y : V3, calRotAxisAngle (fun _ => XR.nan) (vec ![1, 0, 0] []) (vec ![0, 0, 5] []) (XR.fin (Real.pi / 2)) (vecOf ![XR.nan, XR.nan, XR.nan] []) =
    ok (0, vec y []) := by
  have h : 1e-6 < len ![0, 0, 5] := lt_len (by simp; norm_num)
  obtain ⟨k, -, -, h⟩ := cal_rot_axis_angle_correct (fun _ => XR.nan) ![1, 0, 0] ![0, 0, 5] (Real.pi / 2) h.le ![XR.nan, XR.nan, XR.nan] [] [] []
  exact ⟨_, h⟩

/-- C67. The rotations refuse anything that is not three-dimensional; nothing is written. For every scalar type. -/
theorem cal_rot_rejects {R : Type} [CReal R] (junk : ℕ → R) (v a o : Vec R) (b : R) (M : Mtx R) :
    (v.sz ≠ 3 ∨ o.sz ≠ 3 ∨ M.rows ≠ 3 ∨ M.cols ≠ 3 → calRotMtx junk v M o = ok (-EINVAL, o)) ∧
    (v.sz ≠ 3 ∨ o.sz ≠ 3 ∨ a.sz ≠ 3 → calRotAxisAngle junk v a b o = ok (-EINVAL, o)) := by
  refine ⟨fun h => ?_, fun h => ?_⟩
  · unfold calRotMtx
    rw [if_pos h]
  · unfold calRotAxisAngle
    rw [if_pos h]

end Verif
