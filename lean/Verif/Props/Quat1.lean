import Verif.Spec.Quaternion
import Verif.Lemmas.VecReal

/-!
# C55–C58: product, normalisation, inverse and rotation of quaternions
-/

namespace Verif

open Out Quaternion

variable {R : Type} [CReal R]

/-! ### Lemmas -/

theorem norm_sq_quat (q : ℍ[ℝ]) : ‖q‖ ^ 2 = q.re ^ 2 + q.imI ^ 2 + q.imJ ^ 2 + q.imK ^ 2 := by
  rw [sq, ← normSq_eq_norm_mul_self, normSq_def']

theorem norm_quat (q : ℍ[ℝ]) : ‖q‖ = Real.sqrt (q.re * q.re + q.imI * q.imI + q.imJ * q.imJ + q.imK * q.imK) := by
  rw [← Real.sqrt_sq (norm_nonneg q), norm_sq_quat]
  congr 1; ring

theorem quat_injective : Function.Injective quat := by
  intro a b h
  simp only [quat, Quat.mk.injEq, XR.fin.injEq] at h
  exact Quaternion.ext _ _ h.1 h.2.1 h.2.2.1 h.2.2.2

/-! ### C55 -/

/-- C55. `zsl_quat_magn` is the norm. -/
theorem quat_magn_correct (q : ℍ[ℝ]) : quatMagn (quat q) = XR.fin ‖q‖ := by
  rw [norm_quat]
  simp only [quatMagn, quat, XR.fin_mul, XR.fin_add]
  rw [XR.fin_sqrt (by nlinarith [mul_self_nonneg q.re, mul_self_nonneg q.imI, mul_self_nonneg q.imJ, mul_self_nonneg q.imK])]

/-- C55. `zsl_quat_mult` is Hamilton's product. -/
theorem quat_mult_correct (a b : ℍ[ℝ]) : quatMult (quat a) (quat b) = quat (a * b) := by
  simp only [quatMult, quat, XR.fin_mul, XR.fin_add, XR.fin_sub]
  simp [Quaternion.re_mul, Quaternion.imI_mul, Quaternion.imJ_mul, Quaternion.imK_mul]

/-- C55. On pointers: whatever the aliasing of the two inputs and the output, for every scalar type the output receives
the product of the values the inputs had on entry, and no other quaternion changes. -/
theorem quat_mult_aliasing (mem : QMem R) (qa qb qm : ℕ) :
    quatMultMem mem qa qb qm = Function.update mem qm (quatMult (mem qa) (mem qb)) := by
  simp only [quatMultMem, QMem.setI, QMem.setJ, QMem.setK, QMem.setR, Function.update_idem, Function.update_self, quatMult]

/-- C55. Associative. -/
theorem quat_mult_assoc (a b c : ℍ[ℝ]) :
    quatMult (quatMult (quat a) (quat b)) (quat c) = quatMult (quat a) (quatMult (quat b) (quat c)) := by
  simp only [quat_mult_correct, mul_assoc]

/-- C55. The quaternion `zsl_quat_init(q, ZSL_QUAT_TYPE_IDENTITY)` is a two-sided identity of the product. -/
theorem quat_mult_identity (a : ℍ[ℝ]) :
    quatMult quatIdentity (quat a) = quat a ∧ quatMult (quat a) quatIdentity = quat a := by
  have h : (quatIdentity : Quat XR) = quat 1 := by simp [quatIdentity, quat]
  rw [h, quat_mult_correct, quat_mult_correct, one_mul, mul_one]
  exact ⟨rfl, rfl⟩

/-- C55. The magnitude of a product is the product of the magnitudes. -/
theorem quat_magn_mult (a b : ℍ[ℝ]) :
    quatMagn (quatMult (quat a) (quat b)) = quatMagn (quat a) * quatMagn (quat b) := by
  rw [quat_mult_correct, quat_magn_correct, quat_magn_correct, quat_magn_correct, norm_mul, XR.fin_mul]

/-- C55. `i·j = k`, `j·i = -k`: the product does not commute and has Hamilton's orientation. -/
theorem quat_mult_ij :
    quatMult (quat (hq 0 1 0 0)) (quat (hq 0 0 1 0)) = quat (hq 0 0 0 1) ∧
      quatMult (quat (hq 0 0 1 0)) (quat (hq 0 1 0 0)) = quat (hq 0 0 0 (-1)) := by
  constructor <;> simp [quatMult, quat]

/-- C55. `zsl_quat_scale` is scalar multiplication, also in place. -/
theorem quat_scale_correct (a : ℍ[ℝ]) (s : ℝ) : quatScale (quat a) (XR.fin s) = quat (s • a) := by
  simp [quatScale, quat, mul_comm]

/-- C55. `zsl_quat_scale` on pointers. -/
theorem quat_scale_aliasing (mem : QMem R) (q : ℕ) (s : R) (qs : ℕ) :
    quatScaleMem mem q s qs = Function.update mem qs (quatScale (mem q) s) := by
  simp only [quatScaleMem, QMem.setI, QMem.setJ, QMem.setK, QMem.setR, Function.update_idem, Function.update_self, quatScale]
  by_cases h : q = qs
  · subst h; simp
  · simp [Function.update_of_ne h]

example : quatMultMem (fun _ => quat (hq 1 2 3 4)) 0 0 0 0 = quat (hq (-28) 4 6 8) := by
  rw [quat_mult_aliasing, Function.update_self, quat_mult_correct]
  congr 1
  ext <;> norm_num

/-! ### C56 -/

theorem quatToUnit_quat (q : ℍ[ℝ]) : quatToUnit (quat q) = quat (direction q) := by
  unfold quatToUnit direction
  simp only [quat_magn_correct, XR.fin_abs, abs_norm, XR.lit_eq]
  have hl : (((1e-6 : ℚ)) : ℝ) = 1e-6 := by norm_num
  rw [hl]
  by_cases h : ‖q‖ < 1e-6
  · rw [if_pos h, if_pos (by rw [XR.fin_lt]; exact h)]
    simp [quat]
  · rw [if_neg h, if_neg (by rw [XR.fin_lt]; exact h)]
    have h0 : ‖q‖ ≠ 0 := by
      intro h0; rw [h0] at h; norm_num at h
    simp only [quat, XR.fin_div h0]
    simp [div_eq_inv_mul]

/-- C56. `zsl_quat_to_unit` of a quaternion of magnitude at least `1e-6` is a quaternion of magnitude 1 with the same
direction, and `zsl_quat_is_unit` accepts it. -/
theorem quat_to_unit_correct (q : ℍ[ℝ]) (h : 1e-6 ≤ ‖q‖) :
    ∃ u : ℍ[ℝ], quatToUnit (quat q) = quat u ∧ ‖u‖ = 1 ∧ (∃ c : ℝ, 0 < c ∧ q = c • u) ∧
      quatIsUnit (quatToUnit (quat q)) = true := by
  have h0 : 0 < ‖q‖ := lt_of_lt_of_le (by norm_num) h
  have hd : direction q = ‖q‖⁻¹ • q := if_neg (not_lt.2 h)
  have hn : ‖direction q‖ = 1 := by
    rw [hd, norm_smul, norm_inv, norm_norm, inv_mul_cancel₀ h0.ne']
  refine ⟨direction q, quatToUnit_quat q, hn, ⟨‖q‖, h0, ?_⟩, ?_⟩
  · rw [hd, smul_inv_smul₀ h0.ne']
  · have hm := quat_magn_correct (direction q)
    rw [quatToUnit_quat]
    unfold quatIsUnit quatValIsEqual
    unfold quatMagn at hm
    rw [hm, hn]
    simp
    norm_num

example : (1e-6 : ℝ) ≤ ‖(hq 0 0 3 0)‖ := by
  rw [norm_quat]
  exact Real.le_sqrt_of_sq_le (by norm_num)

/-- C56. Below `1e-6` the result is the zero quaternion. -/
theorem quat_to_unit_small (q : ℍ[ℝ]) (h : ‖q‖ < 1e-6) : quatToUnit (quat q) = quat 0 := by
  rw [quatToUnit_quat, direction, if_pos h]

example : ‖(0 : ℍ[ℝ])‖ < 1e-6 := by rw [norm_zero]; norm_num

/-- C56. A quaternion that is already a unit quaternion is unchanged. -/
theorem quat_to_unit_idem (q : ℍ[ℝ]) (h : ‖q‖ = 1) : quatToUnit (quat q) = quat q := by
  rw [quatToUnit_quat, direction, h, if_neg (by norm_num), inv_one, one_smul]

/-- C56. `zsl_quat_is_unit` tells whether the magnitude is within `1e-6` of 1. -/
theorem quat_is_unit_iff (q : ℍ[ℝ]) : quatIsUnit (quat q) = true ↔ |‖q‖ - 1| < 1e-6 := by
  have hm := quat_magn_correct q
  unfold quatIsUnit quatValIsEqual
  unfold quatMagn at hm
  have hl : (((1e-6 : ℚ)) : ℝ) = 1e-6 := by norm_num
  rw [hm]
  simp only [XR.lit_eq, XR.fin_sub, XR.fin_abs, XR.fin_lt, hl]
  norm_num

/-- C56. On pointers, also in place (`zsl_quat_to_unit_d`), for every scalar type. -/
theorem quat_to_unit_aliasing (mem : QMem R) (q qn : ℕ) :
    quatToUnitMem mem q qn = Function.update mem qn (quatToUnit (mem q)) := by
  simp only [quatToUnitMem, QMem.setI, QMem.setJ, QMem.setK, QMem.setR, quatToUnit]
  by_cases h : q = qn
  · subst h
    split <;> simp
  · split <;> simp [Function.update_of_ne h]

/-! ### C57 -/

theorem direction_of_norm_one {q : ℍ[ℝ]} (h : ‖q‖ = 1) : direction q = q := by
  rw [direction, h, if_neg (by norm_num), inv_one, one_smul]

theorem norm_direction {q : ℍ[ℝ]} (h : 1e-6 ≤ ‖q‖) : ‖direction q‖ = 1 := by
  have h0 : 0 < ‖q‖ := lt_of_lt_of_le (by norm_num) h
  rw [direction, if_neg (not_lt.2 h), norm_smul, norm_inv, norm_norm, inv_mul_cancel₀ h0.ne']

theorem quatInv_quat (q : ℍ[ℝ]) (h : 1e-6 ≤ ‖q‖) : quatInv (quat q) = quat q⁻¹ := by
  have h0 : ‖q‖ ≠ 0 := (lt_of_lt_of_le (by norm_num) h).ne'
  unfold quatInv
  simp only [quat_magn_correct, XR.fin_abs, abs_norm, XR.lit_eq]
  have hl : (((1e-6 : ℚ)) : ℝ) = 1e-6 := by norm_num
  rw [hl, if_neg (by rw [XR.fin_lt]; exact not_lt.2 h)]
  have hm : ‖q‖ * ‖q‖ ≠ 0 := mul_ne_zero h0 h0
  have hinv : q⁻¹ = (‖q‖ * ‖q‖)⁻¹ • star q := by
    rw [← normSq_eq_norm_mul_self]; rfl
  rw [hinv]
  simp only [quat, XR.fin_mul, XR.fin_neg, XR.fin_div hm, XR.fin_div (neg_ne_zero.2 hm), re_smul, imI_smul, imJ_smul,
    imK_smul, re_star, imI_star, imJ_star, imK_star, smul_eq_mul, Quat.mk.injEq, XR.fin_inj]
  refine ⟨?_, ?_, ?_, ?_⟩ <;> field_simp

/-- C57. `zsl_quat_inv` of a quaternion of magnitude at least `1e-6` is its two-sided multiplicative inverse. -/
theorem quat_inv_correct (q : ℍ[ℝ]) (h : 1e-6 ≤ ‖q‖) :
    quatMult (quat q) (quatInv (quat q)) = quatIdentity ∧ quatMult (quatInv (quat q)) (quat q) = quatIdentity := by
  have h0 : q ≠ 0 := by
    rintro rfl; rw [norm_zero] at h; norm_num at h
  have hI : (quatIdentity : Quat XR) = quat 1 := by simp [quatIdentity, quat]
  rw [quatInv_quat q h, quat_mult_correct, quat_mult_correct, mul_inv_cancel₀ h0, inv_mul_cancel₀ h0, hI]
  exact ⟨rfl, rfl⟩

/-- C57. Below `1e-6` the "inverse" is the zero quaternion. -/
theorem quat_inv_small (q : ℍ[ℝ]) (h : ‖q‖ < 1e-6) : quatInv (quat q) = quat 0 := by
  unfold quatInv
  simp only [quat_magn_correct, XR.fin_abs, abs_norm, XR.lit_eq]
  have hl : (((1e-6 : ℚ)) : ℝ) = 1e-6 := by norm_num
  rw [hl, if_pos (by rw [XR.fin_lt]; exact h)]
  simp [quatEmpty, quat]

/-- C57. In place (`zsl_quat_inv_d`) or not, for every scalar type. -/
theorem quat_inv_aliasing (mem : QMem R) (q qi : ℕ) :
    quatInvMem mem q qi = Function.update mem qi (quatInv (mem q)) := by
  simp only [quatInvMem, QMem.setI, QMem.setJ, QMem.setK, QMem.setR, quatInv, quatEmpty]
  by_cases h : q = qi
  · subst h
    split <;> simp
  · split <;> simp [Function.update_of_ne h]

/-- C57. `zsl_quat_conj` is conjugation. -/
theorem quat_conj_correct (q : ℍ[ℝ]) : quatConj (quat q) = quat (star q) := by
  simp [quatConj, quat]

/-- C57. Conjugation reverses products and is an involution. -/
theorem quat_conj_mult (a b : ℍ[ℝ]) :
    quatConj (quatMult (quat a) (quat b)) = quatMult (quatConj (quat b)) (quatConj (quat a)) ∧
      quatConj (quatConj (quat a)) = quat a := by
  simp only [quat_mult_correct, quat_conj_correct, star_mul, star_star, and_self]

/-- C57. A unit quaternion's conjugate is its inverse. -/
theorem quat_conj_eq_inv (q : ℍ[ℝ]) (h : ‖q‖ = 1) : quatConj (quat q) = quatInv (quat q) := by
  rw [quatInv_quat q (by rw [h]; norm_num), quat_conj_correct]
  congr 1
  have hinv : q⁻¹ = (normSq q)⁻¹ • star q := rfl
  rw [hinv, normSq_eq_norm_mul_self, h]
  simp

/-- C57. `zsl_quat_diff(qa, qb)` is the `qd` with `qa * qd = qb`. -/
theorem quat_diff_correct (a b : ℍ[ℝ]) (h : 1e-6 ≤ ‖a‖) :
    quatMult (quat a) (quatDiff (quat a) (quat b)) = quat b := by
  have h0 : a ≠ 0 := by
    rintro rfl; rw [norm_zero] at h; norm_num at h
  rw [quatDiff, quatInv_quat a h, quat_mult_correct, quat_mult_correct, mul_inv_cancel_left₀ h0]

/-! ### C58 -/

theorem quatRot_quat (a b : ℍ[ℝ]) (qr : Quat XR) (h : 1e-6 ≤ ‖a‖) (hb : |b.re| ≤ 1e-6) :
    quatRot (quat a) (quat b) qr = (0, quat (direction a * b * (direction a)⁻¹)) := by
  unfold quatRot
  have hl : (((1e-6 : ℚ)) : ℝ) = 1e-6 := by norm_num
  rw [if_neg (by
    simp only [quat, XR.fin_abs, XR.lit_eq, hl]
    rw [XR.fin_gt]; exact not_lt.2 hb)]
  simp only [quatToUnit_quat, quat_mult_correct]
  rw [quatInv_quat _ (by rw [norm_direction h]; norm_num), quat_mult_correct]

theorem re_conj_eq (a b : ℍ[ℝ]) (h : a ≠ 0) : (a * b * a⁻¹).re = b.re := by
  have hc : ∀ x y : ℍ[ℝ], (x * y).re = (y * x).re := by
    intro x y; rw [Quaternion.re_mul, Quaternion.re_mul]; ring
  rw [hc, ← mul_assoc, inv_mul_cancel₀ h, one_mul]

/-- C58. `zsl_quat_rot` computes `u * qb * u⁻¹`, where `u` is the direction of `qa`. -/
theorem quat_rot_correct (a b : ℍ[ℝ]) (qr : Quat XR) (h : 1e-6 ≤ ‖a‖) (hb : b.re = 0) :
    ∃ u c : ℍ[ℝ], ‖u‖ = 1 ∧ a = ‖a‖ • u ∧ quatRot (quat a) (quat b) qr = (0, quat c) ∧ c = u * b * star u := by
  have h0 : 0 < ‖a‖ := lt_of_lt_of_le (by norm_num) h
  have hn := norm_direction h
  refine ⟨direction a, _, hn, ?_, quatRot_quat a b qr h (by rw [hb]; norm_num), ?_⟩
  · rw [direction, if_neg (not_lt.2 h), smul_inv_smul₀ h0.ne']
  · congr 1
    have hinv : (direction a)⁻¹ = (normSq (direction a))⁻¹ • star (direction a) := rfl
    rw [hinv, normSq_eq_norm_mul_self, hn]
    simp

example : ∃ a b : ℍ[ℝ], 1e-6 ≤ ‖a‖ ∧ b.re = 0 ∧ b ≠ 0 ∧ a * b ≠ b * a := by
  refine ⟨(hq 1 0 0 1), (hq 0 1 0 0), ?_, rfl, ?_, ?_⟩
  · rw [norm_quat]
    exact Real.le_sqrt_of_sq_le (by norm_num)
  · intro h
    have := congrArg QuaternionAlgebra.imI h
    simp at this
  · intro h
    have := congrArg QuaternionAlgebra.imJ h
    simp at this
    norm_num at this

/-- C58. The rotation is a rigid motion: pure quaternions stay pure, magnitudes and dot products are preserved. -/
theorem quat_rot_rigid (a b b' : ℍ[ℝ]) (qr : Quat XR) (h : 1e-6 ≤ ‖a‖) (hb : b.re = 0) (hb' : b'.re = 0) :
    ∃ c c' : ℍ[ℝ], quatRot (quat a) (quat b) qr = (0, quat c) ∧ quatRot (quat a) (quat b') qr = (0, quat c') ∧
      c.re = 0 ∧ ‖c‖ = ‖b‖ ∧
      c.imI * c'.imI + c.imJ * c'.imJ + c.imK * c'.imK = b.imI * b'.imI + b.imJ * b'.imJ + b.imK * b'.imK := by
  have hn := norm_direction h
  have h0 : direction a ≠ 0 := by
    intro h0; rw [h0, norm_zero] at hn; norm_num at hn
  have hre := re_conj_eq (direction a) b h0
  have hre' := re_conj_eq (direction a) b' h0
  refine ⟨_, _, quatRot_quat a b qr h (by rw [hb]; norm_num), quatRot_quat a b' qr h (by rw [hb']; norm_num), ?_, ?_, ?_⟩
  · rw [hre, hb]
  · rw [norm_mul, norm_mul, norm_inv, hn]; simp
  · have key : ((direction a * b * (direction a)⁻¹) * (direction a * b' * (direction a)⁻¹)).re = (b * b').re := by
      have : (direction a * b * (direction a)⁻¹) * (direction a * b' * (direction a)⁻¹) =
          direction a * (b * b') * (direction a)⁻¹ := by
        simp only [mul_assoc]
        rw [inv_mul_cancel_left₀ h0]
      rw [this, re_conj_eq _ _ h0]
    rw [Quaternion.re_mul, Quaternion.re_mul b b', hre, hre', hb, hb'] at key
    linarith

/-- C58. Composition: rotating by `b` and then by `a` is rotating by `a * b`. -/
theorem quat_rot_comp (a b p : ℍ[ℝ]) (qr : Quat XR) (ha : ‖a‖ = 1) (hb : ‖b‖ = 1) (hp : p.re = 0) :
    ∃ c d : ℍ[ℝ], quatRot (quat b) (quat p) qr = (0, quat c) ∧ quatRot (quat a) (quat c) qr = (0, quat d) ∧
      quatRot (quatMult (quat a) (quat b)) (quat p) qr = (0, quat d) := by
  have h1 : (1e-6 : ℝ) ≤ 1 := by norm_num
  have hab : ‖a * b‖ = 1 := by rw [norm_mul, ha, hb, mul_one]
  have hb0 : b ≠ 0 := by
    rintro rfl; rw [norm_zero] at hb; norm_num at hb
  have e1 := quatRot_quat b p qr (by rw [hb]; exact h1) (by rw [hp]; norm_num)
  have e2 := quatRot_quat a (b * p * b⁻¹) qr (by rw [ha]; exact h1) (by rw [re_conj_eq b p hb0, hp]; norm_num)
  have e3 := quatRot_quat (a * b) p qr (by rw [hab]; exact h1) (by rw [hp]; norm_num)
  rw [direction_of_norm_one hb] at e1
  rw [direction_of_norm_one ha] at e2
  rw [direction_of_norm_one hab] at e3
  refine ⟨_, _, e1, e2, ?_⟩
  rw [quat_mult_correct, e3, mul_inv_rev]
  simp only [mul_assoc]

/-- C58. A quaternion with a real part above `1e-6` is refused and nothing is written. -/
theorem quat_rot_rejects (a : Quat XR) (b : ℍ[ℝ]) (qr : Quat XR) (hb : 1e-6 < |b.re|) :
    quatRot a (quat b) qr = (-EINVAL, qr) := by
  unfold quatRot
  have hl : (((1e-6 : ℚ)) : ℝ) = 1e-6 := by norm_num
  rw [if_pos (by
    simp only [quat, XR.fin_abs, XR.lit_eq, hl]
    rw [XR.fin_gt]; exact hb)]

/-- C58. The rotation by `k·90°` turns the x axis into the y axis (counter-clockwise). -/
theorem quat_rot_z90 (qr : Quat XR) : quatRot (quat (hq 1 0 0 1)) (quat (hq 0 1 0 0)) qr = (0, quat (hq 0 0 1 0)) := by
  have hn : ‖(hq 1 0 0 1)‖ = Real.sqrt 2 := by rw [norm_quat]; norm_num
  have h1 : (1e-6 : ℝ) ≤ Real.sqrt 2 := Real.le_sqrt_of_sq_le (by norm_num)
  have hs0 : Real.sqrt 2 ≠ 0 := by positivity
  rw [quatRot_quat _ _ _ (by rw [hn]; exact h1) (by norm_num)]
  congr 2
  have hd : direction (hq 1 0 0 1) = (Real.sqrt 2)⁻¹ • (hq 1 0 0 1) := by
    rw [direction, hn, if_neg (not_lt.2 h1)]
  have hne : (hq 1 0 0 1) ≠ 0 := by
    intro h
    have := congrArg QuaternionAlgebra.re h
    simp at this
  have hd0 : direction (hq 1 0 0 1) ≠ 0 := by
    rw [hd]; exact smul_ne_zero (inv_ne_zero hs0) hne
  rw [mul_inv_eq_iff_eq_mul₀ hd0, hd, smul_mul_assoc, mul_smul_comm]
  congr 1
  ext <;> simp

end Verif
