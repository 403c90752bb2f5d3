import Mathlib.LinearAlgebra.Matrix.Determinant.Basic
import Verif.Props.Quat1
import Verif.Props.Matrices4

/-!
# C59: rotation matrices of quaternions
-/

namespace Verif

open Out Quaternion Matrix

variable {R : Type} [CReal R]

/-- The matrix `zsl_quat_to_rot_mtx` writes. -/
def rotOf (q : ℍ[ℝ]) : Matrix (Fin 3) (Fin 3) ℝ :=
  !![1 - 2 * (q.imJ * q.imJ + q.imK * q.imK), 2 * (q.imI * q.imJ - q.imK * q.re), 2 * (q.imI * q.imK + q.imJ * q.re);
     2 * (q.imI * q.imJ + q.imK * q.re), 1 - 2 * (q.imI * q.imI + q.imK * q.imK), 2 * (q.imJ * q.imK - q.imI * q.re);
     2 * (q.imI * q.imK - q.imJ * q.re), 2 * (q.imJ * q.imK + q.imI * q.re), 1 - 2 * (q.imI * q.imI + q.imJ * q.imJ)]

theorem quatToRotMtx_quat (q : ℍ[ℝ]) (B : Matrix (Fin 3) (Fin 3) XR) (t : List XR) :
    quatToRotMtx (quat q) (mtxOf B t) = ok (0, mat (rotOf q) t) := by
  unfold quatToRotMtx
  rw [if_neg (by simp [mtxOf])]
  simp only [mtxOf, mat, mtxSet, wr, quat, XR.lit_eq, XR.fin_mul, XR.fin_sub, XR.fin_add]
  simp [List.ofFn_succ, Fin.divNat, Fin.modNat, rotOf, Matrix.map]

/-- The unit-norm equation in coordinates. -/
theorem unit_eq {q : ℍ[ℝ]} (h : ‖q‖ = 1) : q.re ^ 2 + q.imI ^ 2 + q.imJ ^ 2 + q.imK ^ 2 = 1 := by
  rw [← norm_sq_quat, h, one_pow]

theorem rotOf_mulVec {q : ℍ[ℝ]} (h : ‖q‖ = 1) (p : ℍ[ℝ]) (hp : p.re = 0) :
    rotOf q *ᵥ ![p.imI, p.imJ, p.imK] = ![(q * p * star q).imI, (q * p * star q).imJ, (q * p * star q).imK] := by
  have hu := unit_eq h
  ext i
  fin_cases i <;>
    simp [rotOf, Matrix.mulVec, dotProduct, Fin.sum_univ_three, Quaternion.re_mul, Quaternion.imI_mul,
      Quaternion.imJ_mul, Quaternion.imK_mul, hp]
  · linear_combination (-p.imI) * hu
  · linear_combination (-p.imJ) * hu
  · linear_combination (-p.imK) * hu

theorem rotOf_orth {q : ℍ[ℝ]} (h : ‖q‖ = 1) : (rotOf q)ᵀ * rotOf q = 1 := by
  have hu := unit_eq h
  have hr : q.re ^ 2 = 1 - q.imI ^ 2 - q.imJ ^ 2 - q.imK ^ 2 := by linarith
  ext i j
  fin_cases i <;> fin_cases j <;> simp [rotOf, Matrix.mul_apply, Fin.sum_univ_three]
  · linear_combination (4 * (q.imJ ^ 2 + q.imK ^ 2)) * hu
  · linear_combination (-4 * q.imI * q.imJ) * hu
  · linear_combination (-4 * q.imI * q.imK) * hu
  · linear_combination (-4 * q.imI * q.imJ) * hu
  · linear_combination (4 * (q.imI ^ 2 + q.imK ^ 2)) * hu
  · linear_combination (-4 * q.imJ * q.imK) * hu
  · linear_combination (-4 * q.imI * q.imK) * hu
  · linear_combination (-4 * q.imJ * q.imK) * hu
  · linear_combination (4 * (q.imI ^ 2 + q.imJ ^ 2)) * hu

theorem rotOf_det {q : ℍ[ℝ]} (h : ‖q‖ = 1) : (rotOf q).det = 1 := by
  have hu := unit_eq h
  rw [Matrix.det_fin_three]
  simp [rotOf]
  linear_combination (4 * (q.imI ^ 2 + q.imJ ^ 2 + q.imK ^ 2)) * hu

/-- C59. `zsl_quat_to_rot_mtx` of a unit quaternion writes a proper rotation matrix: orthogonal, of determinant 1, and
acting on vectors as the quaternion acts on pure quaternions, `p ↦ q p q*`. -/
theorem quat_to_rot_mtx_correct (q : ℍ[ℝ]) (h : ‖q‖ = 1) (B : Matrix (Fin 3) (Fin 3) XR) (t : List XR) :
    ∃ A : Matrix (Fin 3) (Fin 3) ℝ, quatToRotMtx (quat q) (mtxOf B t) = ok (0, mat A t) ∧
      Aᵀ * A = 1 ∧ A.det = 1 ∧
      ∀ p : ℍ[ℝ], p.re = 0 →
        A *ᵥ ![p.imI, p.imJ, p.imK] = ![(q * p * star q).imI, (q * p * star q).imJ, (q * p * star q).imK] :=
  ⟨rotOf q, quatToRotMtx_quat q B t, rotOf_orth h, rotOf_det h, fun p hp => rotOf_mulVec h p hp⟩

theorem norm_hq_345 : ‖hq (3 / 5) 0 (4 / 5) 0‖ = 1 := by
  rw [norm_quat]; norm_num

example : ∃ q : ℍ[ℝ], ‖q‖ = 1 ∧ q.re ≠ 0 ∧ q.imJ ≠ 0 := ⟨hq (3 / 5) 0 (4 / 5) 0, norm_hq_345, by norm_num, by norm_num⟩

/-- C59. The quaternion is not normalised first: that of a non-unit quaternion need not be a rotation. -/
theorem quat_to_rot_mtx_nonunit (B : Matrix (Fin 3) (Fin 3) XR) (t : List XR) :
    ∃ A : Matrix (Fin 3) (Fin 3) ℝ, quatToRotMtx (quat (hq 0 2 0 0)) (mtxOf B t) = ok (0, mat A t) ∧ Aᵀ * A ≠ 1 := by
  refine ⟨_, quatToRotMtx_quat _ B t, ?_⟩
  intro h
  have h1 := congrFun (congrFun h 1) 1
  simp [rotOf, Matrix.mul_apply, Fin.sum_univ_three] at h1
  norm_num at h1

/-- C59. `q` and `-q` give the same matrix. -/
theorem quat_to_rot_mtx_neg (q : ℍ[ℝ]) (B : Matrix (Fin 3) (Fin 3) XR) (t : List XR) :
    quatToRotMtx (quat (-q)) (mtxOf B t) = quatToRotMtx (quat q) (mtxOf B t) := by
  rw [quatToRotMtx_quat, quatToRotMtx_quat]
  congr 3
  simp [rotOf]

/-- C59. A matrix that is not 3 × 3 is refused; nothing is written. -/
theorem quat_rot_mtx_shape (q : Quat R) (m : Mtx R) (h : m.rows ≠ 3 ∨ m.cols ≠ 3) :
    quatToRotMtx q m = ok (-EINVAL, m) ∧ quatFromRotMtx m q = ok (-EINVAL, q) :=
  ⟨if_pos h.symm, if_pos h.symm⟩

/-! ### From the matrix to the quaternion -/

theorem signedBy_fin (x a b : ℝ) :
    signedBy (XR.fin x) (XR.fin a) (XR.fin b) = XR.fin (if 1e-6 < |a - b| then x * SignType.sign (a - b) else x) := by
  unfold signedBy
  have hl : (((1e-6 : ℚ)) : ℝ) = 1e-6 := by norm_num
  simp only [XR.fin_sub, XR.fin_abs, XR.lit_eq, hl]
  by_cases h : 1e-6 < |a - b|
  · rw [if_pos (by rw [XR.fin_gt]; exact h), if_pos h]
    have h0 : |a - b| ≠ 0 := (lt_trans (by norm_num) h).ne'
    rw [XR.fin_div h0, XR.fin_mul]
    congr 2
    rw [div_eq_iff h0, mul_comm]
    exact (abs_mul_sign _).symm
  · rw [if_neg (by rw [XR.fin_gt]; exact h), if_neg h]

theorem quatFromRotMtx_mat (A : Matrix (Fin 3) (Fin 3) ℝ) (t : List XR) (q0 : Quat XR)
    (h0 : 0 ≤ A 0 0 + A 1 1 + A 2 2 + 1) (h1 : 0 ≤ A 0 0 - A 1 1 - A 2 2 + 1) (h2 : 0 ≤ -A 0 0 + A 1 1 - A 2 2 + 1)
    (h3 : 0 ≤ -A 0 0 - A 1 1 + A 2 2 + 1) :
    quatFromRotMtx (mat A t) q0 = ok (0, ⟨XR.fin (1 / 2 * Real.sqrt (A 0 0 + A 1 1 + A 2 2 + 1)),
      signedBy (XR.fin (1 / 2 * Real.sqrt (A 0 0 - A 1 1 - A 2 2 + 1))) (XR.fin (A 2 1)) (XR.fin (A 1 2)),
      signedBy (XR.fin (1 / 2 * Real.sqrt (-A 0 0 + A 1 1 - A 2 2 + 1))) (XR.fin (A 0 2)) (XR.fin (A 2 0)),
      signedBy (XR.fin (1 / 2 * Real.sqrt (-A 0 0 - A 1 1 + A 2 2 + 1))) (XR.fin (A 1 0)) (XR.fin (A 0 1))⟩) := by
  unfold quatFromRotMtx
  rw [if_neg (by simp)]
  rw [mat_rd A t 0 0 0 rfl, mat_rd A t 1 0 1 rfl, mat_rd A t 2 0 2 rfl, mat_rd A t 3 1 0 rfl,
    mat_rd A t 4 1 1 rfl, mat_rd A t 5 1 2 rfl, mat_rd A t 6 2 0 rfl, mat_rd A t 7 2 1 rfl, mat_rd A t 8 2 2 rfl]
  have hl : (((0.5 : ℚ)) : ℝ) = 1 / 2 := by norm_num
  have hl1 : (((1 : ℚ)) : ℝ) = 1 := by norm_num
  simp only [ok_bind, pure_eq, XR.fin_mul, XR.fin_sub, XR.fin_add, XR.fin_neg, XR.lit_eq, hl, hl1, XR.fin_sqrt h0,
    XR.fin_sqrt h1, XR.fin_sqrt h2, XR.fin_sqrt h3]

/-- What the sign correction makes of `|x|`, when the entry difference is `4 x r`. -/
theorem signed_abs {x r d : ℝ} (hr : r ≠ 0) (hd : d = 4 * x * r) (hx : x = 0 ∨ 1e-6 < |4 * x * r|) :
    (if 1e-6 < |d| then |x| * ((SignType.sign d : SignType) : ℝ) else |x|) = (SignType.sign r : ℝ) * x := by
  subst hd
  rcases hx with rfl | hx
  · simp
  · rw [if_pos hx]
    have hx0 : x ≠ 0 := by
      rintro rfl; norm_num at hx
    rcases lt_or_gt_of_ne hr with h | h <;> rcases lt_or_gt_of_ne hx0 with h' | h'
    · rw [sign_pos (by nlinarith), sign_neg h, abs_of_neg h']; simp
    · rw [sign_neg (by nlinarith), sign_neg h, abs_of_pos h']; simp
    · rw [sign_neg (by nlinarith), sign_pos h, abs_of_neg h']; simp
    · rw [sign_pos (by nlinarith), sign_pos h, abs_of_pos h']; simp

/-- C59. `zsl_quat_from_rot_mtx` recovers the unit quaternion of a rotation matrix up to its sign, provided no component
of the vector part is lost by the sign test: each is zero or has `|4 r x| > 1e-6`. -/
theorem quat_from_rot_mtx_roundtrip_partial (q : ℍ[ℝ]) (h : ‖q‖ = 1) (B : Matrix (Fin 3) (Fin 3) XR) (t : List XR)
    (q0 : Quat XR) (hi : q.imI = 0 ∨ 1e-6 < |4 * q.imI * q.re|) (hj : q.imJ = 0 ∨ 1e-6 < |4 * q.imJ * q.re|)
    (hk : q.imK = 0 ∨ 1e-6 < |4 * q.imK * q.re|) :
    ∃ m, quatToRotMtx (quat q) (mtxOf B t) = ok (0, m) ∧
      (quatFromRotMtx m q0 = ok (0, quat q) ∨ quatFromRotMtx m q0 = ok (0, quat (-q))) := by
  have hu := unit_eq h
  refine ⟨_, quatToRotMtx_quat q B t, ?_⟩
  have hr : q.re ≠ 0 := by
    intro hr
    rw [hr] at hi hj hk hu
    simp at hi hj hk
    have hi := hi.resolve_right (by norm_num)
    have hj := hj.resolve_right (by norm_num)
    have hk := hk.resolve_right (by norm_num)
    rw [hi, hj, hk] at hu
    norm_num at hu
  have e0 : rotOf q 0 0 + rotOf q 1 1 + rotOf q 2 2 + 1 = (2 * q.re) ^ 2 := by
    simp [rotOf]; linear_combination (-4) * hu
  have e1 : rotOf q 0 0 - rotOf q 1 1 - rotOf q 2 2 + 1 = (2 * q.imI) ^ 2 := by
    simp [rotOf]; ring
  have e2 : -rotOf q 0 0 + rotOf q 1 1 - rotOf q 2 2 + 1 = (2 * q.imJ) ^ 2 := by
    simp [rotOf]; ring
  have e3 : -rotOf q 0 0 - rotOf q 1 1 + rotOf q 2 2 + 1 = (2 * q.imK) ^ 2 := by
    simp [rotOf]; ring
  rw [quatFromRotMtx_mat _ _ _ (by rw [e0]; positivity) (by rw [e1]; positivity) (by rw [e2]; positivity)
    (by rw [e3]; positivity), e0, e1, e2, e3]
  have hs : ∀ x : ℝ, 1 / 2 * Real.sqrt ((2 * x) ^ 2) = |x| := by
    intro x
    rw [Real.sqrt_sq_eq_abs, abs_mul, abs_two]; ring
  simp only [hs, signedBy_fin]
  rw [signed_abs hr (by simp [rotOf]; ring) hi, signed_abs hr (by simp [rotOf]; ring) hj,
    signed_abs hr (by simp [rotOf]; ring) hk]
  rcases lt_or_gt_of_ne hr with h | h
  · right
    rw [abs_of_neg h, sign_neg h]
    simp [quat]
  · left
    rw [abs_of_pos h, sign_pos h]
    simp [quat]

example : ∃ q : ℍ[ℝ], ‖q‖ = 1 ∧ q.imJ ≠ 0 ∧ (q.imI = 0 ∨ 1e-6 < |4 * q.imI * q.re|) ∧
    (q.imJ = 0 ∨ 1e-6 < |4 * q.imJ * q.re|) ∧ (q.imK = 0 ∨ 1e-6 < |4 * q.imK * q.re|) := by
  refine ⟨hq (3 / 5) 0 (4 / 5) 0, norm_hq_345, by norm_num, Or.inl rfl, Or.inr ?_, Or.inl rfl⟩
  rw [hq_imJ, hq_re, abs_of_pos] <;> norm_num

/-- C59. The signs are lost for half turns: the matrix of `0.6 i - 0.8 j` gives back `0.6 i + 0.8 j`. -/
theorem quat_from_rot_mtx_half_turn (B : Matrix (Fin 3) (Fin 3) XR) (t : List XR) (q0 : Quat XR) :
    ∃ m, quatToRotMtx (quat (hq 0 (3 / 5) (-4 / 5) 0)) (mtxOf B t) = ok (0, m) ∧
      quatFromRotMtx m q0 = ok (0, quat (hq 0 (3 / 5) (4 / 5) 0)) := by
  refine ⟨_, quatToRotMtx_quat _ B t, ?_⟩
  have hs : ∀ x : ℝ, 0 ≤ x → 1 / 2 * Real.sqrt ((2 * x) ^ 2) = x := by
    intro x hx
    rw [Real.sqrt_sq (by positivity)]; ring
  rw [quatFromRotMtx_mat _ _ _ (by simp [rotOf]; norm_num) (by simp [rotOf]; norm_num) (by simp [rotOf]; norm_num)
    (by simp [rotOf]; norm_num)]
  simp only [signedBy_fin]
  have e0 : (1 : ℝ) / 2 * Real.sqrt (rotOf (hq 0 (3 / 5) (-4 / 5) 0) 0 0 + rotOf (hq 0 (3 / 5) (-4 / 5) 0) 1 1 +
      rotOf (hq 0 (3 / 5) (-4 / 5) 0) 2 2 + 1) = 0 := by
    refine Eq.trans ?_ (hs 0 le_rfl)
    congr 2; simp [rotOf]; norm_num
  have e1 : (1 : ℝ) / 2 * Real.sqrt (rotOf (hq 0 (3 / 5) (-4 / 5) 0) 0 0 - rotOf (hq 0 (3 / 5) (-4 / 5) 0) 1 1 -
      rotOf (hq 0 (3 / 5) (-4 / 5) 0) 2 2 + 1) = 3 / 5 := by
    refine Eq.trans ?_ (hs (3 / 5) (by norm_num))
    congr 2; simp [rotOf]; norm_num
  have e2 : (1 : ℝ) / 2 * Real.sqrt (-rotOf (hq 0 (3 / 5) (-4 / 5) 0) 0 0 + rotOf (hq 0 (3 / 5) (-4 / 5) 0) 1 1 -
      rotOf (hq 0 (3 / 5) (-4 / 5) 0) 2 2 + 1) = 4 / 5 := by
    refine Eq.trans ?_ (hs (4 / 5) (by norm_num))
    congr 2; simp [rotOf]; norm_num
  have e3 : (1 : ℝ) / 2 * Real.sqrt (-rotOf (hq 0 (3 / 5) (-4 / 5) 0) 0 0 - rotOf (hq 0 (3 / 5) (-4 / 5) 0) 1 1 +
      rotOf (hq 0 (3 / 5) (-4 / 5) 0) 2 2 + 1) = 0 := by
    refine Eq.trans ?_ (hs 0 le_rfl)
    congr 2; simp [rotOf]; norm_num
  rw [e0, e1, e2, e3]
  simp [rotOf, quat]
  norm_num

/-! Every rotation matrix, whether or not it is known to come from a quaternion. -/

/-- The entries of the inverse of a rotation matrix, twice: transpose and adjugate. -/
theorem so3_eqs {A : Matrix (Fin 3) (Fin 3) ℝ} (ho : Aᵀ * A = 1) (hd : A.det = 1) :
    A * Aᵀ = 1 ∧ A.adjugate = Aᵀ := by
  have h1 : A * Aᵀ = 1 := mul_eq_one_comm.1 ho
  refine ⟨h1, ?_⟩
  have h2 : A.adjugate * A = 1 := by rw [Matrix.adjugate_mul, hd, one_smul]
  calc A.adjugate = A.adjugate * (A * Aᵀ) := by rw [h1, mul_one]
    _ = Aᵀ := by rw [← mul_assoc, h2, one_mul]

theorem so3_poly {A : Matrix (Fin 3) (Fin 3) ℝ} (ho : Aᵀ * A = 1) (hd : A.det = 1) :
    let P := A 0 0 + A 1 1 + A 2 2 + 1
    let Q := A 0 0 - A 1 1 - A 2 2 + 1
    let S := -A 0 0 + A 1 1 - A 2 2 + 1
    let T := -A 0 0 - A 1 1 + A 2 2 + 1
    P * Q = (A 2 1 - A 1 2) ^ 2 ∧ P * S = (A 0 2 - A 2 0) ^ 2 ∧ P * T = (A 1 0 - A 0 1) ^ 2 ∧
      Q * S = (A 0 1 + A 1 0) ^ 2 ∧ Q * T = (A 0 2 + A 2 0) ^ 2 ∧ S * T = (A 1 2 + A 2 1) ^ 2 ∧
      (A 2 1 - A 1 2) * (A 0 2 - A 2 0) = P * (A 0 1 + A 1 0) ∧
      (A 2 1 - A 1 2) * (A 1 0 - A 0 1) = P * (A 0 2 + A 2 0) ∧
      (A 0 2 - A 2 0) * (A 1 0 - A 0 1) = P * (A 1 2 + A 2 1) := by
  obtain ⟨ho', hadj⟩ := so3_eqs ho hd
  rw [Matrix.adjugate_fin_three] at hadj
  have c : ∀ i j, (Aᵀ * A) i j = (1 : Matrix (Fin 3) (Fin 3) ℝ) i j := fun i j => by rw [ho]
  have r : ∀ i j, (A * Aᵀ) i j = (1 : Matrix (Fin 3) (Fin 3) ℝ) i j := fun i j => by rw [ho']
  have k : ∀ i j, _ = Aᵀ i j := fun i j => congrFun (congrFun hadj i) j
  have c00 := c 0 0; have c11 := c 1 1; have c22 := c 2 2
  have c01 := c 0 1; have c02 := c 0 2; have c12 := c 1 2
  have r00 := r 0 0; have r11 := r 1 1; have r22 := r 2 2
  have r01 := r 0 1; have r02 := r 0 2; have r12 := r 1 2
  have k00 := k 0 0; have k01 := k 0 1; have k02 := k 0 2
  have k10 := k 1 0; have k11 := k 1 1; have k12 := k 1 2
  have k20 := k 2 0; have k21 := k 2 1; have k22 := k 2 2
  clear c r k hadj ho ho'
  simp [Matrix.mul_apply, Fin.sum_univ_three] at *
  refine ⟨?_, ?_, ?_, ?_, ?_, ?_, ?_, ?_, ?_⟩
  · linear_combination c00 - r11 - r22 - 2 * k00
  · linear_combination c11 - r00 - r22 - 2 * k11
  · linear_combination c22 - r00 - r11 - 2 * k22
  · linear_combination r22 - c00 - c11 + 2 * k22
  · linear_combination r11 - c00 - c22 + 2 * k11
  · linear_combination r00 - c11 - c22 + 2 * k00
  · linear_combination k01 + k10 - c01 - r01
  · linear_combination k02 + k20 - c02 - r02
  · linear_combination k12 + k21 - c12 - r12

/-- The four radicands are nonnegative for a rotation matrix. -/
theorem so3_nonneg {P Q S T : ℝ} (hs : P + Q + S + T = 4) (h1 : 0 ≤ P * Q) (h2 : 0 ≤ P * S) (h3 : 0 ≤ P * T) :
    0 ≤ P := by
  by_contra h
  push Not at h
  have : Q ≤ 0 := by nlinarith
  have : S ≤ 0 := by nlinarith
  have : T ≤ 0 := by nlinarith
  linarith

theorem so3_radicands {A : Matrix (Fin 3) (Fin 3) ℝ} (ho : Aᵀ * A = 1) (hd : A.det = 1) :
    0 ≤ A 0 0 + A 1 1 + A 2 2 + 1 ∧ 0 ≤ A 0 0 - A 1 1 - A 2 2 + 1 ∧ 0 ≤ -A 0 0 + A 1 1 - A 2 2 + 1 ∧
      0 ≤ -A 0 0 - A 1 1 + A 2 2 + 1 := by
  obtain ⟨p1, p2, p3, p4, p5, p6, -⟩ := so3_poly ho hd
  have n1 := p1 ▸ sq_nonneg _
  have n2 := p2 ▸ sq_nonneg _
  have n3 := p3 ▸ sq_nonneg _
  have n4 := p4 ▸ sq_nonneg _
  have n5 := p5 ▸ sq_nonneg _
  have n6 := p6 ▸ sq_nonneg _
  rw [mul_comm] at p1 p2 p3
  have l1 := p1 ▸ sq_nonneg _
  have l2 := p2 ▸ sq_nonneg _
  have l3 := p3 ▸ sq_nonneg _
  rw [mul_comm] at p4 p5 p6
  have l4 := p4 ▸ sq_nonneg _
  have l5 := p5 ▸ sq_nonneg _
  have l6 := p6 ▸ sq_nonneg _
  exact ⟨so3_nonneg (by ring) n1 n2 n3, so3_nonneg (by ring) l1 n4 n5, so3_nonneg (by ring) l2 l4 n6,
    so3_nonneg (by ring) l3 l5 l6⟩

theorem signed_sq (x d : ℝ) : (if 1e-6 < |d| then x * ((SignType.sign d : SignType) : ℝ) else x) ^ 2 = x ^ 2 := by
  split_ifs with h
  · rcases lt_trichotomy d 0 with h' | h' | h'
    · rw [sign_neg h']; simp
    · rw [h'] at h; norm_num at h
    · rw [sign_pos h']; simp
  · rfl

theorem signed_mul {P X d : ℝ} (hP : 0 ≤ P) (hd : P * X = d ^ 2) (h : d = 0 ∨ 1e-6 < |d|) :
    4 * (1 / 2 * Real.sqrt P) *
      (if 1e-6 < |d| then 1 / 2 * Real.sqrt X * ((SignType.sign d : SignType) : ℝ) else 1 / 2 * Real.sqrt X) = d := by
  have hm : Real.sqrt P * Real.sqrt X = |d| := by
    rw [← Real.sqrt_mul hP, hd, Real.sqrt_sq_eq_abs]
  rcases h with rfl | h
  · rw [if_neg (by norm_num)]
    rw [abs_zero] at hm
    linarith
  · rw [if_pos h]
    calc _ = (Real.sqrt P * Real.sqrt X) * ((SignType.sign d : SignType) : ℝ) := by ring
      _ = d := by rw [hm]; exact abs_mul_sign _

/-- C59. Of every rotation matrix (orthogonal, determinant 1) `zsl_quat_from_rot_mtx` makes a unit quaternion. -/
theorem quat_from_rot_mtx_unit (A : Matrix (Fin 3) (Fin 3) ℝ) (ho : Aᵀ * A = 1) (hd : A.det = 1) (t : List XR)
    (q0 : Quat XR) : ∃ q : ℍ[ℝ], quatFromRotMtx (mat A t) q0 = ok (0, quat q) ∧ ‖q‖ = 1 := by
  obtain ⟨h0, h1, h2, h3⟩ := so3_radicands ho hd
  rw [quatFromRotMtx_mat A t q0 h0 h1 h2 h3]
  simp only [signedBy_fin]
  refine ⟨hq _ (if 1e-6 < |A 2 1 - A 1 2| then _ else _) (if 1e-6 < |A 0 2 - A 2 0| then _ else _)
    (if 1e-6 < |A 1 0 - A 0 1| then _ else _), rfl, ?_⟩
  rw [← pow_eq_one_iff_of_nonneg (norm_nonneg _) two_ne_zero]
  · rw [norm_sq_quat, hq_re, hq_imI, hq_imJ, hq_imK, signed_sq, signed_sq, signed_sq]
    rw [mul_pow, mul_pow, mul_pow, mul_pow, Real.sq_sqrt h0, Real.sq_sqrt h1, Real.sq_sqrt h2, Real.sq_sqrt h3]
    ring

/-- C59. The other round trip: a rotation matrix that is not a half turn is the matrix of the quaternion obtained from
it, provided the antisymmetric part has no entry the sign test takes for zero. -/
theorem quat_rot_mtx_from_to_partial (A : Matrix (Fin 3) (Fin 3) ℝ) (ho : Aᵀ * A = 1) (hd : A.det = 1) (t u : List XR)
    (q0 : Quat XR) (B : Matrix (Fin 3) (Fin 3) XR) (htr : 0 < A 0 0 + A 1 1 + A 2 2 + 1)
    (hi : A 2 1 - A 1 2 = 0 ∨ 1e-6 < |A 2 1 - A 1 2|) (hj : A 0 2 - A 2 0 = 0 ∨ 1e-6 < |A 0 2 - A 2 0|)
    (hk : A 1 0 - A 0 1 = 0 ∨ 1e-6 < |A 1 0 - A 0 1|) :
    ∃ q, quatFromRotMtx (mat A t) q0 = ok (0, q) ∧ quatToRotMtx q (mtxOf B u) = ok (0, mat A u) := by
  obtain ⟨h0, h1, h2, h3⟩ := so3_radicands ho hd
  obtain ⟨p1, p2, p3, -, -, -, m1, m2, m3⟩ := so3_poly ho hd
  have e1 := signed_mul h0 p1 hi
  have e2 := signed_mul h0 p2 hj
  have e3 := signed_mul h0 p3 hk
  rw [quatFromRotMtx_mat A t q0 h0 h1 h2 h3]
  simp only [signedBy_fin]
  set r := 1 / 2 * Real.sqrt (A 0 0 + A 1 1 + A 2 2 + 1) with hr
  have s1 := signed_sq (1 / 2 * Real.sqrt (A 0 0 - A 1 1 - A 2 2 + 1)) (A 2 1 - A 1 2)
  have s2 := signed_sq (1 / 2 * Real.sqrt (-A 0 0 + A 1 1 - A 2 2 + 1)) (A 0 2 - A 2 0)
  have s3 := signed_sq (1 / 2 * Real.sqrt (-A 0 0 - A 1 1 + A 2 2 + 1)) (A 1 0 - A 0 1)
  rw [mul_pow, Real.sq_sqrt h1] at s1
  rw [mul_pow, Real.sq_sqrt h2] at s2
  rw [mul_pow, Real.sq_sqrt h3] at s3
  set i := (if 1e-6 < |A 2 1 - A 1 2| then 1 / 2 * Real.sqrt (A 0 0 - A 1 1 - A 2 2 + 1) *
    ((SignType.sign (A 2 1 - A 1 2) : SignType) : ℝ) else 1 / 2 * Real.sqrt (A 0 0 - A 1 1 - A 2 2 + 1))
  set j := (if 1e-6 < |A 0 2 - A 2 0| then 1 / 2 * Real.sqrt (-A 0 0 + A 1 1 - A 2 2 + 1) *
    ((SignType.sign (A 0 2 - A 2 0) : SignType) : ℝ) else 1 / 2 * Real.sqrt (-A 0 0 + A 1 1 - A 2 2 + 1))
  set k := (if 1e-6 < |A 1 0 - A 0 1| then 1 / 2 * Real.sqrt (-A 0 0 - A 1 1 + A 2 2 + 1) *
    ((SignType.sign (A 1 0 - A 0 1) : SignType) : ℝ) else 1 / 2 * Real.sqrt (-A 0 0 - A 1 1 + A 2 2 + 1))
  have hr2 : 4 * r ^ 2 = A 0 0 + A 1 1 + A 2 2 + 1 := by
    rw [hr, mul_pow, Real.sq_sqrt h0]; ring
  have x1 : 4 * (i * j) = A 0 1 + A 1 0 := by
    have : (A 0 0 + A 1 1 + A 2 2 + 1) * (4 * (i * j)) = (A 0 0 + A 1 1 + A 2 2 + 1) * (A 0 1 + A 1 0) := by
      rw [← m1, ← e1, ← e2, ← hr2]; ring
    exact mul_left_cancel₀ htr.ne' this
  have x2 : 4 * (i * k) = A 0 2 + A 2 0 := by
    have : (A 0 0 + A 1 1 + A 2 2 + 1) * (4 * (i * k)) = (A 0 0 + A 1 1 + A 2 2 + 1) * (A 0 2 + A 2 0) := by
      rw [← m2, ← e1, ← e3, ← hr2]; ring
    exact mul_left_cancel₀ htr.ne' this
  have x3 : 4 * (j * k) = A 1 2 + A 2 1 := by
    have : (A 0 0 + A 1 1 + A 2 2 + 1) * (4 * (j * k)) = (A 0 0 + A 1 1 + A 2 2 + 1) * (A 1 2 + A 2 1) := by
      rw [← m3, ← e2, ← e3, ← hr2]; ring
    exact mul_left_cancel₀ htr.ne' this
  refine ⟨_, rfl, ?_⟩
  refine (quatToRotMtx_quat (hq r i j k) B u).trans ?_
  congr 3
  ext a b
  fin_cases a <;> fin_cases b <;> simp [rotOf] <;> linarith

example : ∃ A : Matrix (Fin 3) (Fin 3) ℝ, Aᵀ * A = 1 ∧ A.det = 1 ∧ 0 < A 0 0 + A 1 1 + A 2 2 + 1 ∧
    (A 2 1 - A 1 2 = 0 ∨ 1e-6 < |A 2 1 - A 1 2|) ∧ 1e-6 < |A 0 2 - A 2 0| ∧ A 1 0 - A 0 1 = 0 := by
  refine ⟨rotOf (hq (3 / 5) 0 (4 / 5) 0), rotOf_orth norm_hq_345, rotOf_det norm_hq_345, ?_, Or.inl ?_, ?_, ?_⟩
  · simp [rotOf]; norm_num
  · simp [rotOf]
  · have : rotOf (hq (3 / 5) 0 (4 / 5) 0) 0 2 - rotOf (hq (3 / 5) 0 (4 / 5) 0) 2 0 = 48 / 25 := by
      simp [rotOf]; norm_num
    rw [this, abs_of_pos] <;> norm_num
  · simp [rotOf]

end Verif
