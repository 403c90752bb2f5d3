import Mathlib.Analysis.SpecialFunctions.Complex.Arg
import Verif.Props.Quat3

/-!
# C86, C87: Euler angles and axis–angle round trips
-/

namespace Verif

open Out Quaternion Matrix

/-! ### Rotation matrices determine unit quaternions up to sign -/

theorem unit_eq_or_neg {p q : ℍ[ℝ]} (hp : ‖p‖ = 1) (hq : ‖q‖ = 1) (h : rotOf p = rotOf q) : p = q ∨ p = -q := by
  have up := unit_eq hp
  have uq := unit_eq hq
  have e := fun i j => congrFun (congrFun h i) j
  have e00 := e 0 0; have e01 := e 0 1; have e02 := e 0 2
  have e10 := e 1 0; have e11 := e 1 1; have e12 := e 1 2
  have e20 := e 2 0; have e21 := e 2 1; have e22 := e 2 2
  clear e h
  simp [rotOf] at e00 e01 e02 e10 e11 e12 e20 e21 e22
  have ii : p.imI * p.imI = q.imI * q.imI := by linarith
  have jj : p.imJ * p.imJ = q.imJ * q.imJ := by linarith
  have kk : p.imK * p.imK = q.imK * q.imK := by linarith
  have rr : p.re * p.re = q.re * q.re := by linarith
  have ij : p.imI * p.imJ = q.imI * q.imJ := by linarith
  have ik : p.imI * p.imK = q.imI * q.imK := by linarith
  have jk : p.imJ * p.imK = q.imJ * q.imK := by linarith
  have ri : p.re * p.imI = q.re * q.imI := by linarith
  have rj : p.re * p.imJ = q.re * q.imJ := by linarith
  have rk : p.re * p.imK = q.re * q.imK := by linarith
  have hd : qdot p q ^ 2 = 1 := by
    unfold qdot
    have : (p.re * q.re + p.imI * q.imI + p.imJ * q.imJ + p.imK * q.imK) ^ 2 =
        (p.re * p.re) * (q.re * q.re) + (p.imI * p.imI) * (q.imI * q.imI) + (p.imJ * p.imJ) * (q.imJ * q.imJ) +
        (p.imK * p.imK) * (q.imK * q.imK) + 2 * ((p.re * p.imI) * (q.re * q.imI) + (p.re * p.imJ) * (q.re * q.imJ) +
        (p.re * p.imK) * (q.re * q.imK) + (p.imI * p.imJ) * (q.imI * q.imJ) + (p.imI * p.imK) * (q.imI * q.imK) +
        (p.imJ * p.imK) * (q.imJ * q.imK)) := by ring
    rw [this, ii, jj, kk, rr, ij, ik, jk, ri, rj, rk]
    linear_combination (q.re ^ 2 + q.imI ^ 2 + q.imJ ^ 2 + q.imK ^ 2 + 1) * uq
  have hm : ‖p - q‖ ^ 2 = 2 - 2 * qdot p q := by
    rw [norm_sq_quat]
    simp only [Quaternion.re_sub, Quaternion.imI_sub, Quaternion.imJ_sub, Quaternion.imK_sub]
    unfold qdot
    linear_combination up + uq
  have ha : ‖p + q‖ ^ 2 = 2 + 2 * qdot p q := by
    rw [norm_sq_quat]
    simp only [Quaternion.re_add, Quaternion.imI_add, Quaternion.imJ_add, Quaternion.imK_add]
    unfold qdot
    linear_combination up + uq
  rcases mul_self_eq_one_iff.1 ((sq (qdot p q)).symm.trans hd) with h | h
  · left
    rw [h] at hm
    have : ‖p - q‖ = 0 := by
      have : ‖p - q‖ ^ 2 = 0 := by rw [hm]; norm_num
      exact pow_eq_zero_iff two_ne_zero |>.1 this
    exact sub_eq_zero.1 (norm_eq_zero.1 this)
  · right
    rw [h] at ha
    have : ‖p + q‖ = 0 := by
      have : ‖p + q‖ ^ 2 = 0 := by rw [ha]; norm_num
      exact pow_eq_zero_iff two_ne_zero |>.1 this
    exact eq_neg_of_add_eq_zero_left (norm_eq_zero.1 this)


theorem rotOf_mulVec' {q : ℍ[ℝ]} (h : ‖q‖ = 1) (v : Fin 3 → ℝ) :
    rotOf q *ᵥ v = ![(q * hq 0 (v 0) (v 1) (v 2) * star q).imI, (q * hq 0 (v 0) (v 1) (v 2) * star q).imJ,
      (q * hq 0 (v 0) (v 1) (v 2) * star q).imK] := by
  rw [← rotOf_mulVec h _ (hq_re _ _ _ _)]
  congr 1
  ext i
  fin_cases i <;> rfl

theorem rotOf_mul {p q : ℍ[ℝ]} (hp : ‖p‖ = 1) (hq : ‖q‖ = 1) : rotOf (p * q) = rotOf p * rotOf q := by
  apply Matrix.mulVec_injective
  funext v
  have hpq : ‖p * q‖ = 1 := by rw [norm_mul, hp, hq, one_mul]
  have hq0 : q ≠ 0 := by
    rintro rfl; rw [norm_zero] at hq; norm_num at hq
  have hst : star q = q⁻¹ := by
    have : q⁻¹ = (normSq q)⁻¹ • star q := rfl
    rw [this, normSq_eq_norm_mul_self, hq]; simp
  rw [← Matrix.mulVec_mulVec, rotOf_mulVec' hpq, rotOf_mulVec' hq, rotOf_mulVec' hp]
  have hin : Verif.hq 0 (![(q * Verif.hq 0 (v 0) (v 1) (v 2) * star q).imI, (q * Verif.hq 0 (v 0) (v 1) (v 2) * star q).imJ,
      (q * Verif.hq 0 (v 0) (v 1) (v 2) * star q).imK] 0) (![(q * Verif.hq 0 (v 0) (v 1) (v 2) * star q).imI,
      (q * Verif.hq 0 (v 0) (v 1) (v 2) * star q).imJ, (q * Verif.hq 0 (v 0) (v 1) (v 2) * star q).imK] 1)
      (![(q * Verif.hq 0 (v 0) (v 1) (v 2) * star q).imI, (q * Verif.hq 0 (v 0) (v 1) (v 2) * star q).imJ,
      (q * Verif.hq 0 (v 0) (v 1) (v 2) * star q).imK] 2) = q * Verif.hq 0 (v 0) (v 1) (v 2) * star q := by
    apply Quaternion.ext
    · rw [hst, re_conj_eq _ _ hq0]; rfl
    · rfl
    · rfl
    · rfl
  rw [hin, star_mul]
  simp only [mul_assoc]

/-- Rotations about the coordinate axes. -/
theorem rotOf_x (x : ℝ) : rotOf (hq (Real.cos (x / 2)) (Real.sin (x / 2)) 0 0) =
    !![1, 0, 0; 0, Real.cos x, -Real.sin x; 0, Real.sin x, Real.cos x] := by
  have hs : Real.sin x = 2 * Real.sin (x / 2) * Real.cos (x / 2) := by rw [← Real.sin_two_mul]; congr 1; ring
  have hc : Real.cos x = 1 - 2 * Real.sin (x / 2) ^ 2 := by
    have := Real.cos_two_mul (x / 2); rw [mul_div_cancel₀ x two_ne_zero] at this
    rw [this, Real.cos_sq']; ring
  rw [hs, hc]
  ext i j
  fin_cases i <;> fin_cases j <;> simp [rotOf] <;> ring

theorem rotOf_y (x : ℝ) : rotOf (hq (Real.cos (x / 2)) 0 (Real.sin (x / 2)) 0) =
    !![Real.cos x, 0, Real.sin x; 0, 1, 0; -Real.sin x, 0, Real.cos x] := by
  have hs : Real.sin x = 2 * Real.sin (x / 2) * Real.cos (x / 2) := by rw [← Real.sin_two_mul]; congr 1; ring
  have hc : Real.cos x = 1 - 2 * Real.sin (x / 2) ^ 2 := by
    have := Real.cos_two_mul (x / 2); rw [mul_div_cancel₀ x two_ne_zero] at this
    rw [this, Real.cos_sq']; ring
  rw [hs, hc]
  ext i j
  fin_cases i <;> fin_cases j <;> simp [rotOf] <;> ring

theorem rotOf_z (x : ℝ) : rotOf (hq (Real.cos (x / 2)) 0 0 (Real.sin (x / 2))) =
    !![Real.cos x, -Real.sin x, 0; Real.sin x, Real.cos x, 0; 0, 0, 1] := by
  have hs : Real.sin x = 2 * Real.sin (x / 2) * Real.cos (x / 2) := by rw [← Real.sin_two_mul]; congr 1; ring
  have hc : Real.cos x = 1 - 2 * Real.sin (x / 2) ^ 2 := by
    have := Real.cos_two_mul (x / 2); rw [mul_div_cancel₀ x two_ne_zero] at this
    rw [this, Real.cos_sq']; ring
  rw [hs, hc]
  ext i j
  fin_cases i <;> fin_cases j <;> simp [rotOf] <;> ring

/-- The quaternion `zsl_quat_from_euler` computes. -/
noncomputable def eulerq (x y z : ℝ) : ℍ[ℝ] := hq (Real.cos (x / 2)) (Real.sin (x / 2)) 0 0 *
  hq (Real.cos (y / 2)) 0 (Real.sin (y / 2)) 0 * hq (Real.cos (z / 2)) 0 0 (Real.sin (z / 2))

theorem norm_eulerq (x y z : ℝ) : ‖eulerq x y z‖ = 1 := by
  unfold eulerq
  rw [norm_mul, norm_mul, (norm_hq_cs _).1, (norm_hq_cs _).2.1, (norm_hq_cs _).2.2]; norm_num

theorem rotOf_eulerq (x y z : ℝ) : rotOf (eulerq x y z) =
    !![Real.cos y * Real.cos z, -(Real.cos y * Real.sin z), Real.sin y;
       Real.sin x * Real.sin y * Real.cos z + Real.cos x * Real.sin z,
         Real.cos x * Real.cos z - Real.sin x * Real.sin y * Real.sin z, -(Real.sin x * Real.cos y);
       Real.sin x * Real.sin z - Real.cos x * Real.sin y * Real.cos z,
         Real.cos x * Real.sin y * Real.sin z + Real.sin x * Real.cos z, Real.cos x * Real.cos y] := by
  unfold eulerq
  rw [rotOf_mul (by rw [norm_mul, (norm_hq_cs _).1, (norm_hq_cs _).2.1, one_mul]) (norm_hq_cs _).2.2,
    rotOf_mul (norm_hq_cs _).1 (norm_hq_cs _).2.1, rotOf_x, rotOf_y, rotOf_z]
  ext i j
  fin_cases i <;> fin_cases j <;> simp [Matrix.mul_apply, Fin.sum_univ_three] <;> ring

/-! ### C86 -/

/-- The orthogonality relations of the matrix of a unit quaternion. -/
theorem rotOf_rows {q : ℍ[ℝ]} (h : ‖q‖ = 1) :
    rotOf q 0 0 ^ 2 + rotOf q 0 1 ^ 2 + rotOf q 0 2 ^ 2 = 1 ∧ rotOf q 0 2 ^ 2 + rotOf q 1 2 ^ 2 + rotOf q 2 2 ^ 2 = 1 := by
  have o1 := (so3_eqs (rotOf_orth h) (rotOf_det h)).1
  have o2 := rotOf_orth h
  have r00 := congrFun (congrFun o1 0) 0
  have c22 := congrFun (congrFun o2 2) 2
  rw [Matrix.mul_apply, Fin.sum_univ_three, Matrix.one_apply_eq] at r00 c22
  simp only [Matrix.transpose_apply] at r00 c22
  constructor <;> nlinarith

/-- `zsl_quat_to_euler` of a unit quaternion in terms of the matrix, outside the gimbal-lock band. -/
theorem quatToEuler_quat {q : ℍ[ℝ]} (h : ‖q‖ = 1) (h1 : 2e-6 ≤ |rotOf q 0 2 - 1|) (h2 : 2e-6 ≤ |rotOf q 0 2 + 1|) :
    quatToEuler (quat q) = ⟨XR.fin (Complex.arg ⟨rotOf q 2 2, -rotOf q 1 2⟩), XR.fin (Real.arcsin (rotOf q 0 2)),
      XR.fin (Complex.arg ⟨rotOf q 0 0, -rotOf q 0 1⟩)⟩ := by
  have hl : (((1e-6 : ℚ)) : ℝ) = 1e-6 := by norm_num
  have hl5 : (((0.5 : ℚ)) : ℝ) = 1 / 2 := by norm_num
  have hl2 : (((2 : ℚ)) : ℝ) = 2 := by norm_num
  have hl1 : (((1 : ℚ)) : ℝ) = 1 := by norm_num
  have hlm : (((-1 : ℚ)) : ℝ) = -1 := by norm_num
  have hI : rotOf q 0 2 ∈ Set.Icc (-1 : ℝ) 1 := by
    have := (rotOf_rows h).1
    have hsq : rotOf q 0 2 ^ 2 ≤ 1 := by nlinarith [sq_nonneg (rotOf q 0 0), sq_nonneg (rotOf q 0 1)]
    exact abs_le.1 (abs_le_one_iff_mul_self_le_one.2 (by rw [← sq]; exact hsq))
  have hR02 : rotOf q 0 2 = 2 * (q.imI * q.imK + q.imJ * q.re) := by simp [rotOf]
  unfold quatToEuler
  rw [quat_to_unit_idem q h]
  simp only [quat, XR.fin_mul, XR.fin_add, XR.fin_sub, XR.lit_eq, hl2, hl1, hlm, hl5, hl, ← hR02, XR.fin_atan2]
  rw [if_neg (by
    rw [Bool.or_eq_true, XR.fin_abs, XR.fin_abs, XR.fin_lt, XR.fin_lt]
    push Not
    have e1 : q.imI * q.imK + q.imJ * q.re - 1 / 2 = (rotOf q 0 2 - 1) / 2 := by rw [hR02]; ring
    have e2 : q.imI * q.imK + q.imJ * q.re + 1 / 2 = (rotOf q 0 2 + 1) / 2 := by rw [hR02]; ring
    rw [e1, e2, abs_div, abs_div, abs_two]
    constructor <;> linarith)]
  rw [if_neg (by rw [XR.fin_gt]; exact not_lt.2 hI.2), if_neg (by rw [XR.fin_lt]; exact not_lt.2 hI.1), XR.fin_asin hI]
  congr 3
  · simp [rotOf]; ring
  · simp [rotOf]; ring

/-- Sine and cosine of `atan2 (b, a)`. -/
theorem arg_cos_sin {a b c : ℝ} (hc : 0 < c) (h : a ^ 2 + b ^ 2 = c ^ 2) :
    c * Real.cos (Complex.arg ⟨a, b⟩) = a ∧ c * Real.sin (Complex.arg ⟨a, b⟩) = b := by
  have hn : ‖(⟨a, b⟩ : ℂ)‖ = c := by
    rw [Complex.norm_eq_sqrt_sq_add_sq, h, Real.sqrt_sq hc.le]
  have h0 : (⟨a, b⟩ : ℂ) ≠ 0 := by
    intro h0; rw [h0, norm_zero] at hn; exact hc.ne hn
  rw [Complex.cos_arg h0, Complex.sin_arg, hn]
  constructor <;> field_simp

theorem euler_matrix {q : ℍ[ℝ]} (h : ‖q‖ = 1) {x y z : ℝ} (hc : Real.cos y ≠ 0) (hs : Real.sin y = rotOf q 0 2)
    (cx : Real.cos y * Real.cos x = rotOf q 2 2) (sx : Real.cos y * Real.sin x = -rotOf q 1 2)
    (cz : Real.cos y * Real.cos z = rotOf q 0 0) (sz : Real.cos y * Real.sin z = -rotOf q 0 1) :
    rotOf (eulerq x y z) = rotOf q := by
  have ho := rotOf_orth h
  obtain ⟨ho', hadj⟩ := so3_eqs ho (rotOf_det h)
  rw [Matrix.adjugate_fin_three] at hadj
  have c : ∀ i j, ((rotOf q)ᵀ * rotOf q) i j = (1 : Matrix (Fin 3) (Fin 3) ℝ) i j := fun i j => by rw [ho]
  have r : ∀ i j, (rotOf q * (rotOf q)ᵀ) i j = (1 : Matrix (Fin 3) (Fin 3) ℝ) i j := fun i j => by rw [ho']
  have k : ∀ i j, _ = (rotOf q)ᵀ i j := fun i j => congrFun (congrFun hadj i) j
  have hy := Real.sin_sq_add_cos_sq y
  have c22 := c 2 2; have c02 := c 0 2; have c12 := c 1 2
  have r00 := r 0 0
  have k10 := k 1 0; have k00 := k 0 0
  clear c r k
  rw [rotOf_eulerq]
  generalize rotOf q = A at *
  simp [Matrix.mul_apply, Fin.sum_univ_three] at c22 c02 c12 r00 k10 k00
  have hc2 : Real.cos y ^ 2 ≠ 0 := pow_ne_zero 2 hc
  have hy2 : Real.cos y ^ 2 = A 1 2 ^ 2 + A 2 2 ^ 2 := by rw [hs] at hy; nlinarith
  ext i j
  fin_cases i <;> fin_cases j <;> simp
  · exact cz
  · linarith
  · exact hs
  · apply mul_left_cancel₀ hc2
    have : Real.cos y ^ 2 * (Real.sin x * Real.sin y * Real.cos z + Real.cos x * Real.sin z) =
        (Real.cos y * Real.sin x) * Real.sin y * (Real.cos y * Real.cos z) +
          (Real.cos y * Real.cos x) * (Real.cos y * Real.sin z) := by ring
    rw [this, sx, cz, cx, sz, hs, hy2]
    linear_combination A 2 2 * k10 - A 1 2 * c02
  · apply mul_left_cancel₀ hc2
    have : Real.cos y ^ 2 * (Real.cos x * Real.cos z - Real.sin x * Real.sin y * Real.sin z) =
        (Real.cos y * Real.cos x) * (Real.cos y * Real.cos z) -
          (Real.cos y * Real.sin x) * Real.sin y * (Real.cos y * Real.sin z) := by ring
    rw [this, sx, cz, cx, sz, hs, hy2]
    linear_combination -A 2 2 * k00 - A 1 2 * c12
  · linarith
  · apply mul_left_cancel₀ hc2
    have : Real.cos y ^ 2 * (Real.sin x * Real.sin z - Real.cos x * Real.sin y * Real.cos z) =
        (Real.cos y * Real.sin x) * (Real.cos y * Real.sin z) -
          (Real.cos y * Real.cos x) * Real.sin y * (Real.cos y * Real.cos z) := by ring
    rw [this, sx, cz, cx, sz, hs, hy2]
    linear_combination -A 1 2 * k10 - A 2 2 * c02
  · apply mul_left_cancel₀ hc2
    have : Real.cos y ^ 2 * (Real.cos x * Real.sin y * Real.sin z + Real.sin x * Real.cos z) =
        (Real.cos y * Real.cos x) * Real.sin y * (Real.cos y * Real.sin z) +
          (Real.cos y * Real.sin x) * (Real.cos y * Real.cos z) := by ring
    rw [this, sx, cz, cx, sz, hs, hy2]
    linear_combination A 1 2 * k00 - A 2 2 * c12
  · linarith

/-- C86. Converting a quaternion of magnitude at least `1e-6` to Euler angles and back gives its direction up to sign,
outside the band of gimbal lock (`|sin pitch| > 1 - 2e-6`). The angles are the principal ones. -/
theorem quat_euler_roundtrip_partial (q : ℍ[ℝ]) (hn : 1e-6 ≤ ‖q‖)
    (h1 : 1e-6 ≤ |((direction q).imI * (direction q).imK + (direction q).imJ * (direction q).re) - 1 / 2|)
    (h2 : 1e-6 ≤ |((direction q).imI * (direction q).imK + (direction q).imJ * (direction q).re) + 1 / 2|) :
    ∃ x y z : ℝ, quatToEuler (quat q) = ⟨XR.fin x, XR.fin y, XR.fin z⟩ ∧
      (quatFromEuler ⟨XR.fin x, XR.fin y, XR.fin z⟩ = quatToUnit (quat q) ∨
        quatFromEuler ⟨XR.fin x, XR.fin y, XR.fin z⟩ = quat (-direction q)) ∧
      x ∈ Set.Ioc (-Real.pi) Real.pi ∧ y ∈ Set.Icc (-(Real.pi / 2)) (Real.pi / 2) ∧ z ∈ Set.Ioc (-Real.pi) Real.pi := by
  have hu := norm_direction hn
  have hR02 : rotOf (direction q) 0 2 =
      2 * ((direction q).imI * (direction q).imK + (direction q).imJ * (direction q).re) := by simp [rotOf]
  have g1 : 2e-6 ≤ |rotOf (direction q) 0 2 - 1| := by
    rw [hR02, show ∀ g : ℝ, 2 * g - 1 = 2 * (g - 1 / 2) from fun g => by ring, abs_mul, abs_two]; linarith
  have g2 : 2e-6 ≤ |rotOf (direction q) 0 2 + 1| := by
    rw [hR02, show ∀ g : ℝ, 2 * g + 1 = 2 * (g + 1 / 2) from fun g => by ring, abs_mul, abs_two]; linarith
  have hE : quatToEuler (quat q) = quatToEuler (quat (direction q)) := by
    unfold quatToEuler
    rw [quatToUnit_quat, quat_to_unit_idem _ hu]
  obtain ⟨hr, hc⟩ := rotOf_rows hu
  have hsq : rotOf (direction q) 0 2 ^ 2 ≤ 1 := by
    nlinarith [sq_nonneg (rotOf (direction q) 0 0), sq_nonneg (rotOf (direction q) 0 1)]
  have hI : -1 ≤ rotOf (direction q) 0 2 ∧ rotOf (direction q) 0 2 ≤ 1 :=
    abs_le.1 (abs_le_one_iff_mul_self_le_one.2 (by rw [← sq]; exact hsq))
  have hsy := Real.sin_arcsin hI.1 hI.2
  have hcy : Real.cos (Real.arcsin (rotOf (direction q) 0 2)) = Real.sqrt (1 - rotOf (direction q) 0 2 ^ 2) :=
    Real.cos_arcsin _
  have hpos : 0 < 1 - rotOf (direction q) 0 2 ^ 2 := by
    have n1 : rotOf (direction q) 0 2 ≠ 1 := by
      intro h; rw [h] at g1; norm_num at g1
    have n2 : rotOf (direction q) 0 2 ≠ -1 := by
      intro h; rw [h] at g2; norm_num at g2
    have a1 := lt_of_le_of_ne hI.2 n1
    have a2 := lt_of_le_of_ne hI.1 (Ne.symm n2)
    nlinarith
  have hcp : 0 < Real.cos (Real.arcsin (rotOf (direction q) 0 2)) := by rw [hcy]; exact Real.sqrt_pos.2 hpos
  have hc2 : Real.cos (Real.arcsin (rotOf (direction q) 0 2)) ^ 2 = 1 - rotOf (direction q) 0 2 ^ 2 := by
    rw [hcy, Real.sq_sqrt hpos.le]
  obtain ⟨cx, sx⟩ := arg_cos_sin (a := rotOf (direction q) 2 2) (b := -rotOf (direction q) 1 2) hcp (by rw [hc2]; linarith)
  obtain ⟨cz, sz⟩ := arg_cos_sin (a := rotOf (direction q) 0 0) (b := -rotOf (direction q) 0 1) hcp (by rw [hc2]; linarith)
  refine ⟨_, _, _, hE.trans (quatToEuler_quat hu g1 g2), ?_, ⟨Complex.neg_pi_lt_arg _, Complex.arg_le_pi _⟩,
    ⟨Real.neg_pi_div_two_le_arcsin _, Real.arcsin_le_pi_div_two _⟩, ⟨Complex.neg_pi_lt_arg _, Complex.arg_le_pi _⟩⟩
  rw [quat_from_euler_correct, quatToUnit_quat]
  have := unit_eq_or_neg (norm_eulerq _ _ _) hu (euler_matrix hu hcp.ne' hsy cx sx cz sz)
  unfold eulerq at this
  exact this.imp (congrArg quat) (congrArg quat)

example : ∃ q : ℍ[ℝ], 1e-6 ≤ ‖q‖ ∧ q.imJ ≠ 0 ∧
    1e-6 ≤ |((direction q).imI * (direction q).imK + (direction q).imJ * (direction q).re) - 1 / 2| ∧
    1e-6 ≤ |((direction q).imI * (direction q).imK + (direction q).imJ * (direction q).re) + 1 / 2| := by
  refine ⟨hq (3 / 5) 0 (4 / 5) 0, by rw [norm_hq_345]; norm_num, by norm_num, ?_⟩
  rw [direction_of_norm_one norm_hq_345]
  simp only [hq_re, hq_imI, hq_imJ, hq_imK]
  constructor
  · rw [abs_of_neg] <;> norm_num
  · rw [abs_of_pos] <;> norm_num

/-- C86. The other round trip: principal Euler angles with a pitch outside the gimbal-lock band are recovered exactly. -/
theorem quat_euler_angles_recovered (x y z : ℝ) (hx : x ∈ Set.Ioc (-Real.pi) Real.pi)
    (hy : y ∈ Set.Ioo (-(Real.pi / 2)) (Real.pi / 2)) (hz : z ∈ Set.Ioc (-Real.pi) Real.pi)
    (hb : |Real.sin y| ≤ 1 - 2e-6) :
    quatToEuler (quatFromEuler ⟨XR.fin x, XR.fin y, XR.fin z⟩) = ⟨XR.fin x, XR.fin y, XR.fin z⟩ := by
  have hcy : 0 < Real.cos y := Real.cos_pos_of_mem_Ioo hy
  obtain ⟨b1, b2⟩ := abs_le.1 hb
  have hm := rotOf_eulerq x y z
  have m02 : rotOf (eulerq x y z) 0 2 = Real.sin y := by rw [hm]; simp
  have m22 : rotOf (eulerq x y z) 2 2 = Real.cos y * Real.cos x := by rw [hm]; simp [mul_comm]
  have m12 : -rotOf (eulerq x y z) 1 2 = Real.cos y * Real.sin x := by rw [hm]; simp [mul_comm]
  have m00 : rotOf (eulerq x y z) 0 0 = Real.cos y * Real.cos z := by rw [hm]; simp
  have m01 : -rotOf (eulerq x y z) 0 1 = Real.cos y * Real.sin z := by rw [hm]; simp
  have harg : ∀ t : ℝ, t ∈ Set.Ioc (-Real.pi) Real.pi → Complex.arg ⟨Real.cos y * Real.cos t, Real.cos y * Real.sin t⟩ = t := by
    intro t ht
    have : (⟨Real.cos y * Real.cos t, Real.cos y * Real.sin t⟩ : ℂ) =
        ((Real.cos y : ℝ) : ℂ) * (Complex.cos t + Complex.sin t * Complex.I) := by
      rw [← Complex.ofReal_cos t, ← Complex.ofReal_sin t]
      apply Complex.ext <;> simp [-Complex.ofReal_cos, -Complex.ofReal_sin]
    rw [this, Complex.arg_mul_cos_add_sin_mul_I hcy ht]
  have hf : quatFromEuler ⟨XR.fin x, XR.fin y, XR.fin z⟩ = quat (eulerq x y z) := quat_from_euler_correct x y z
  rw [hf, quatToEuler_quat (norm_eulerq x y z), m02, m22, m12, m00, m01, harg x hx, harg z hz,
    Real.arcsin_sin hy.1.le hy.2.le]
  · rw [m02, abs_of_nonpos (by linarith)]; linarith
  · rw [m02, abs_of_nonneg (by linarith)]; linarith

example : (1 : ℝ) ∈ Set.Ioc (-Real.pi) Real.pi ∧ (0 : ℝ) ∈ Set.Ioo (-(Real.pi / 2)) (Real.pi / 2) ∧
    |Real.sin 0| ≤ 1 - 2e-6 := by
  have := Real.one_le_pi_div_two
  refine ⟨⟨by linarith, by linarith⟩, ⟨by linarith, by linarith⟩, ?_⟩
  rw [Real.sin_zero, abs_zero]; norm_num

/-- C86. In exact gimbal lock (pitch `±90°`) the round trip is exact as well, with yaw 0. -/
theorem quat_euler_gimbal (q : ℍ[ℝ]) (h : ‖q‖ = 1) (hg : |q.imI * q.imK + q.imJ * q.re| = 1 / 2) :
    ∃ x y : ℝ, quatToEuler (quat q) = ⟨XR.fin x, XR.fin y, XR.fin 0⟩ ∧
      (quatFromEuler ⟨XR.fin x, XR.fin y, XR.fin 0⟩ = quat q ∨ quatFromEuler ⟨XR.fin x, XR.fin y, XR.fin 0⟩ = quat (-q)) ∧
      |y| = Real.pi / 2 := by
  have hl : (((1e-6 : ℚ)) : ℝ) = 1e-6 := by norm_num
  have hl5 : (((0.5 : ℚ)) : ℝ) = 1 / 2 := by norm_num
  have hl2 : (((2 : ℚ)) : ℝ) = 2 := by norm_num
  have hl1 : (((1 : ℚ)) : ℝ) = 1 := by norm_num
  have hl0 : (((0 : ℚ)) : ℝ) = 0 := by norm_num
  have hlm : (((-1 : ℚ)) : ℝ) = -1 := by norm_num
  have hR02 : rotOf q 0 2 = 2 * (q.imI * q.imK + q.imJ * q.re) := by simp [rotOf]
  have hab : |rotOf q 0 2| = 1 := by rw [hR02, abs_mul, abs_two, hg]; norm_num
  have hsq : rotOf q 0 2 ^ 2 = 1 := by rw [← sq_abs, hab, one_pow]
  have hI := abs_le.1 hab.le
  have hE : quatToEuler (quat q) = ⟨XR.fin (Complex.arg ⟨rotOf q 1 1, rotOf q 2 1⟩), XR.fin (Real.arcsin (rotOf q 0 2)),
      XR.fin 0⟩ := by
    unfold quatToEuler
    rw [quat_to_unit_idem q h]
    simp only [quat, XR.fin_mul, XR.fin_add, XR.fin_sub, XR.lit_eq, hl2, hl1, hlm, hl5, hl, hl0, ← hR02, XR.fin_atan2]
    rw [if_pos (by
      rw [Bool.or_eq_true, XR.fin_abs, XR.fin_abs, XR.fin_lt, XR.fin_lt]
      rcases abs_eq (by norm_num : (0 : ℝ) ≤ 1 / 2) |>.1 hg with hg | hg
      · left; rw [hg]; norm_num
      · right; rw [hg]; norm_num)]
    rw [if_neg (by rw [XR.fin_gt]; exact not_lt.2 hI.2), if_neg (by rw [XR.fin_lt]; exact not_lt.2 hI.1), XR.fin_asin hI]
    rfl
  refine ⟨_, _, hE, ?_, ?_⟩
  · have hsy := Real.sin_arcsin hI.1 hI.2
    have hcy : Real.cos (Real.arcsin (rotOf q 0 2)) = 0 := by
      rw [Real.cos_arcsin, hsq, sub_self, Real.sqrt_zero]
    have ho := rotOf_orth h
    obtain ⟨ho', hadj⟩ := so3_eqs ho (rotOf_det h)
    rw [Matrix.adjugate_fin_three] at hadj
    have r : ∀ i j, (rotOf q * (rotOf q)ᵀ) i j = (1 : Matrix (Fin 3) (Fin 3) ℝ) i j := fun i j => by rw [ho']
    have c : ∀ i j, ((rotOf q)ᵀ * rotOf q) i j = (1 : Matrix (Fin 3) (Fin 3) ℝ) i j := fun i j => by rw [ho]
    have k : ∀ i j, _ = (rotOf q)ᵀ i j := fun i j => congrFun (congrFun hadj i) j
    have r00 := r 0 0; have c22 := c 2 2; have c11 := c 1 1
    have k11 := k 1 1; have k12 := k 1 2
    clear r c k
    rw [quat_from_euler_correct]
    have key : rotOf (eulerq (Complex.arg ⟨rotOf q 1 1, rotOf q 2 1⟩) (Real.arcsin (rotOf q 0 2)) 0) = rotOf q := by
      rw [rotOf_eulerq, hcy, hsy, Real.cos_zero, Real.sin_zero]
      generalize rotOf q = A at *
      simp [Matrix.mul_apply, Fin.sum_univ_three] at r00 c22 c11 k11 k12
      have hsq' : A 0 2 * A 0 2 = 1 := by rw [← sq]; exact hsq
      obtain ⟨z00, z01⟩ := mul_self_add_mul_self_eq_zero.1 (show A 0 0 * A 0 0 + A 0 1 * A 0 1 = 0 by linarith)
      obtain ⟨z12, z22⟩ := mul_self_add_mul_self_eq_zero.1 (show A 1 2 * A 1 2 + A 2 2 * A 2 2 = 0 by linarith)
      obtain ⟨cx, sx⟩ := arg_cos_sin (a := A 1 1) (b := A 2 1) one_pos (by rw [z01] at c11; linarith)
      rw [one_mul] at cx sx
      rw [z00, z22] at k11
      rw [z00, z12] at k12
      ext i j
      fin_cases i <;> fin_cases j <;> simp [z00, z01, z12, z22, cx, sx]
      · linear_combination (-A 0 2) * k12 + (A 1 0) * hsq
      · linear_combination (A 0 2) * k11 + (A 2 0) * hsq
    have := unit_eq_or_neg (norm_eulerq _ _ _) h key
    unfold eulerq at this
    exact this.imp (congrArg quat) (congrArg quat)
  · rcases abs_eq (zero_le_one' ℝ) |>.1 hab with hg | hg
    · rw [hg, Real.arcsin_one, abs_of_pos (by positivity)]
    · rw [hg, Real.arcsin_neg_one, abs_neg, abs_of_pos (by positivity)]

example : ∃ q : ℍ[ℝ], ‖q‖ = 1 ∧ |q.imI * q.imK + q.imJ * q.re| = 1 / 2 := by
  refine ⟨hq (Real.sqrt 2 / 2) 0 (Real.sqrt 2 / 2) 0, ?_, ?_⟩
  · rw [norm_quat, Real.sqrt_eq_one]
    have := Real.mul_self_sqrt (zero_le_two (α := ℝ))
    simp; linarith
  · have := Real.mul_self_sqrt (zero_le_two (α := ℝ))
    have e : (hq (Real.sqrt 2 / 2) 0 (Real.sqrt 2 / 2) 0).imI * (hq (Real.sqrt 2 / 2) 0 (Real.sqrt 2 / 2) 0).imK +
        (hq (Real.sqrt 2 / 2) 0 (Real.sqrt 2 / 2) 0).imJ * (hq (Real.sqrt 2 / 2) 0 (Real.sqrt 2 / 2) 0).re = 1 / 2 := by
      simp; linarith
    rw [e, abs_of_pos] ; norm_num

/-! ### C87 -/

theorem quatToAxisAngle_vec (q : ℍ[ℝ]) (a : Fin 3 → XR) (s : List XR) (b : XR) (hu : ‖q‖ = 1)
    (h1 : 1e-6 ≤ |q.re - 1|) (h2 : q.re ≠ -1) :
    quatToAxisAngle (quat q) (vecOf a s) b = ok (0, vec (fun i => ![q.imI, q.imJ, q.imK] i / Real.sqrt (1 - q.re ^ 2)) s,
      XR.fin (2 * Real.arccos q.re)) := by
  have hl : (((1e-6 : ℚ)) : ℝ) = 1e-6 := by norm_num
  have hl2 : (((2 : ℚ)) : ℝ) = 2 := by norm_num
  have hl1 : (((1 : ℚ)) : ℝ) = 1 := by norm_num
  have ue := unit_eq hu
  have hI : q.re ∈ Set.Icc (-1 : ℝ) 1 := abs_le.1 (abs_le_one_iff_mul_self_le_one.2 (by
    nlinarith [sq_nonneg q.imI, sq_nonneg q.imJ, sq_nonneg q.imK]))
  have n1 : q.re ≠ 1 := by
    intro h; rw [h] at h1; norm_num at h1
  have hpos : 0 < 1 - q.re ^ 2 := by
    have a1 := lt_of_le_of_ne hI.2 n1
    have a2 := lt_of_le_of_ne hI.1 (Ne.symm h2)
    nlinarith
  have hs := (Real.sqrt_pos.2 hpos).ne'
  unfold quatToAxisAngle
  rw [if_neg (by simp [vecOf]), quat_to_unit_idem q hu]
  simp only [quat, XR.lit_eq, XR.fin_sub, XR.fin_abs, hl, hl1, hl2, XR.fin_mul]
  rw [if_neg (by rw [XR.fin_lt]; exact not_lt.2 h1), ← sq, XR.fin_sqrt hpos.le, XR.fin_acos hI, XR.fin_div hs, XR.fin_div hs,
    XR.fin_div hs]
  simp [vecOf, arrOf, vec, arr, wr, List.ofFn_succ]

/-- C87. `zsl_quat_to_axis_angle` followed by `zsl_quat_from_axis_angle` gives the direction of the quaternion back, for
every quaternion of magnitude at least `1e-6` whose rotation is not (nearly) the identity; the axis is a unit vector. -/
theorem quat_axis_angle_roundtrip_partial (junk : ℕ → XR) (q : ℍ[ℝ]) (a : Fin 3 → XR) (s : List XR) (b : XR) (q0 : Quat XR)
    (hn : 1e-6 ≤ ‖q‖) (h1 : 1e-6 ≤ |(direction q).re - 1|) (h2 : (direction q).re ≠ -1) :
    ∃ (n : Fin 3 → ℝ) (θ : ℝ), quatToAxisAngle (quat q) (vecOf a s) b = ok (0, vec n s, XR.fin θ) ∧
      n ⬝ᵥ n = 1 ∧ θ ∈ Set.Icc 0 (2 * Real.pi) ∧
      quatFromAxisAngle junk (vec n s) (XR.fin θ) q0 = ok (0, quatToUnit (quat q)) := by
  have hu := norm_direction hn
  have hE : quatToAxisAngle (quat q) (vecOf a s) b = quatToAxisAngle (quat (direction q)) (vecOf a s) b := by
    unfold quatToAxisAngle
    rw [quatToUnit_quat, quat_to_unit_idem _ hu]
  rw [hE, quatToAxisAngle_vec _ a s b hu h1 h2]
  have ue := unit_eq hu
  have hI : (direction q).re ∈ Set.Icc (-1 : ℝ) 1 := abs_le.1 (abs_le_one_iff_mul_self_le_one.2 (by
    nlinarith [sq_nonneg (direction q).imI, sq_nonneg (direction q).imJ, sq_nonneg (direction q).imK]))
  have n1 : (direction q).re ≠ 1 := by
    intro h; rw [h] at h1; norm_num at h1
  have hpos : 0 < 1 - (direction q).re ^ 2 := by
    have a1 := lt_of_le_of_ne hI.2 n1
    have a2 := lt_of_le_of_ne hI.1 (Ne.symm h2)
    nlinarith
  have hs := (Real.sqrt_pos.2 hpos).ne'
  have hs2 := Real.sq_sqrt hpos.le
  have hdot : (fun i => ![(direction q).imI, (direction q).imJ, (direction q).imK] i / Real.sqrt (1 - (direction q).re ^ 2)) ⬝ᵥ
      (fun i => ![(direction q).imI, (direction q).imJ, (direction q).imK] i / Real.sqrt (1 - (direction q).re ^ 2)) = 1 := by
    simp only [dotProduct, Fin.sum_univ_three]
    generalize Real.sqrt (1 - (direction q).re ^ 2) = r at *
    simp
    field_simp
    linarith
  refine ⟨_, _, rfl, hdot, ⟨?_, ?_⟩, ?_⟩
  · have := Real.arccos_nonneg (direction q).re; linarith
  · have := Real.arccos_le_pi (direction q).re; linarith
  · rw [quatFromAxisAngle_vec _ _ _ _ _ (by rw [hdot, Real.sqrt_one]; norm_num), hdot, Real.sqrt_one, quatToUnit_quat]
    have e : 2 * Real.arccos (direction q).re / 2 = Real.arccos (direction q).re := by ring
    rw [e, Real.cos_arccos hI.1 hI.2, Real.sin_arccos]
    congr 2
    unfold quat
    generalize Real.sqrt (1 - (direction q).re ^ 2) = r at *
    simp [hs]

example : ∃ q : ℍ[ℝ], 1e-6 ≤ ‖q‖ ∧ 1e-6 ≤ |(direction q).re - 1| ∧ (direction q).re ≠ -1 := by
  refine ⟨hq (3 / 5) 0 (4 / 5) 0, by rw [norm_hq_345]; norm_num, ?_, ?_⟩
  · rw [direction_of_norm_one norm_hq_345, hq_re, abs_of_neg] <;> norm_num
  · rw [direction_of_norm_one norm_hq_345, hq_re]; norm_num

/-- C87. For the identity rotation the round trip fails: the axis is the zero vector, from which
`zsl_quat_from_axis_angle` makes the zero quaternion, not the identity. -/
theorem quat_axis_angle_identity (junk : ℕ → XR) (a : Fin 3 → XR) (s : List XR) (b : XR) (q0 : Quat XR) :
    quatToAxisAngle (quatIdentity : Quat XR) (vecOf a s) b = ok (0, vec (0 : Fin 3 → ℝ) s, XR.fin 0) ∧
      quatFromAxisAngle junk (vec (0 : Fin 3 → ℝ) s) (XR.fin 0) q0 = ok (0, quat 0) := by
  have hId : (quatIdentity : Quat XR) = quat 1 := by simp [quatIdentity, quat]
  refine ⟨?_, quat_from_axis_angle_zero junk 0 s _ q0 (by simp; norm_num)⟩
  unfold quatToAxisAngle
  rw [hId, if_neg (by simp [vecOf]), quat_to_unit_idem 1 norm_one]
  have hl : (((1e-6 : ℚ)) : ℝ) = 1e-6 := by norm_num
  have hl1 : (((1 : ℚ)) : ℝ) = 1 := by norm_num
  have hr : (quat 1).r = XR.fin 1 := by simp [quat]
  simp only [hr, XR.lit_eq, XR.fin_sub, XR.fin_abs, hl, hl1]
  rw [if_pos (by rw [XR.fin_lt]; norm_num)]
  simp [vecOf, arrOf, vec, arr, wr, List.ofFn_succ]

/-- C87. For `-1`, the other quaternion of the identity rotation, the axis is NaN. -/
theorem quat_axis_angle_neg_one (a : Fin 3 → XR) (s : List XR) (b : XR) :
    ∃ θ, quatToAxisAngle (quat (-1)) (vecOf a s) b = ok (0, ⟨3, [XR.nan, XR.nan, XR.nan] ++ s⟩, θ) := by
  unfold quatToAxisAngle
  rw [if_neg (by simp [vecOf]), quat_to_unit_idem (-1) (by rw [norm_neg, norm_one])]
  have hl : (((1e-6 : ℚ)) : ℝ) = 1e-6 := by norm_num
  have hl1 : (((1 : ℚ)) : ℝ) = 1 := by norm_num
  have hq : quat (-1) = ⟨XR.fin (-1), XR.fin 0, XR.fin 0, XR.fin 0⟩ := by simp [quat]
  simp only [hq, XR.lit_eq, XR.fin_sub, XR.fin_abs, hl, hl1, XR.fin_mul]
  rw [if_neg (by rw [XR.fin_lt]; norm_num)]
  have hs : (CReal.sqrt (XR.fin (1 - -1 * -1)) : XR) = XR.fin 0 := by
    rw [XR.fin_sqrt (by norm_num)]; norm_num
  rw [hs]
  refine ⟨XR.fin ((2 : ℚ) : ℝ) * CReal.acos (XR.fin (-1)), ?_⟩
  simp only [vecOf, arrOf, wr, List.ofFn_succ, XR.fin_div_zero]
  simp [XR.infOf]

end Verif
