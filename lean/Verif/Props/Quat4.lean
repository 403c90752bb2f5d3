import Mathlib.Analysis.Normed.Algebra.QuaternionExponential
import Verif.Props.Quat3

/-!
# C62: exponential, logarithm and power of quaternions
-/

namespace Verif

open Out Quaternion

/-- The pure quaternion of a vector. -/
def pureq (x : Fin 3 → ℝ) : ℍ[ℝ] := hq 0 (x 0) (x 1) (x 2)

@[simp] theorem pureq_re (x : Fin 3 → ℝ) : (pureq x).re = 0 := rfl
@[simp] theorem pureq_imI (x : Fin 3 → ℝ) : (pureq x).imI = x 0 := rfl
@[simp] theorem pureq_imJ (x : Fin 3 → ℝ) : (pureq x).imJ = x 1 := rfl
@[simp] theorem pureq_imK (x : Fin 3 → ℝ) : (pureq x).imK = x 2 := rfl

/-- The vector part as a vector. -/
def qvec (q : ℍ[ℝ]) : Fin 3 → ℝ := ![q.imI, q.imJ, q.imK]

theorem norm_im_sq (q : ℍ[ℝ]) : ‖q.im‖ ^ 2 = q.imI ^ 2 + q.imJ ^ 2 + q.imK ^ 2 := by
  rw [norm_sq_quat]; simp

theorem sqrt_qvec (q : ℍ[ℝ]) : Real.sqrt (qvec q ⬝ᵥ qvec q) = ‖q.im‖ := by
  rw [← Real.sqrt_sq (norm_nonneg q.im), norm_im_sq]
  congr 1
  simp [qvec, dotProduct, Fin.sum_univ_three, sq]

theorem qvec_eq_zero (q : ℍ[ℝ]) : qvec q = 0 ↔ q.im = 0 := by
  constructor
  · intro h
    have h0 := congrFun h 0; have h1 := congrFun h 1; have h2 := congrFun h 2
    simp [qvec] at h0 h1 h2
    ext <;> simp [*]
  · intro h
    have h0 : q.imI = 0 := by simpa using congrArg QuaternionAlgebra.imI h
    have h1 : q.imJ = 0 := by simpa using congrArg QuaternionAlgebra.imJ h
    have h2 : q.imK = 0 := by simpa using congrArg QuaternionAlgebra.imK h
    funext i
    fin_cases i <;> simp [qvec, *]

/-- The unit pure quaternion along the vector part of `q` (the `i` axis when that is zero). -/
noncomputable def axis (q : ℍ[ℝ]) : ℍ[ℝ] := pureq (unitOf (qvec q))

theorem axis_re (q : ℍ[ℝ]) : (axis q).re = 0 := rfl

theorem norm_axis (q : ℍ[ℝ]) : ‖axis q‖ = 1 := by
  rw [← pow_eq_one_iff_of_nonneg (norm_nonneg _) two_ne_zero, norm_sq_quat]
  have := unitOf_norm (qvec q)
  rw [Fin.sum_univ_three] at this
  simp [axis]
  linarith

theorem norm_smul_axis (q : ℍ[ℝ]) : ‖q.im‖ • axis q = q.im := by
  by_cases h : q.im = 0
  · rw [h, norm_zero, zero_smul]
  · have hv : qvec q ≠ 0 := fun hv => h ((qvec_eq_zero q).1 hv)
    have h0 : ‖q.im‖ ≠ 0 := norm_ne_zero_iff.2 h
    unfold axis
    rw [unitOf, if_neg hv, sqrt_qvec]
    ext <;> simp [qvec] <;> field_simp

/-- Exponential along an axis. -/
theorem exp_axis (r s : ℝ) {u : ℍ[ℝ]} (hu : u.re = 0) (hn : ‖u‖ = 1) :
    NormedSpace.exp ((r : ℍ[ℝ]) + s • u) = Real.exp r • ((Real.cos s : ℍ[ℝ]) + Real.sin s • u) := by
  have hre : ((r : ℍ[ℝ]) + s • u).re = r := by simp [hu]
  have him : ((r : ℍ[ℝ]) + s • u).im = s • u := by
    ext <;> simp [hu]
  rw [Quaternion.exp_eq, hre, him, norm_smul, hn, mul_one, Real.norm_eq_abs, Real.cos_abs, smul_smul, ← Real.exp_eq_exp_ℝ]
  congr 3
  rcases lt_trichotomy s 0 with h | h | h
  · rw [abs_of_neg h, Real.sin_neg]; field_simp [h.ne]
  · rw [h]; simp
  · rw [abs_of_pos h]; field_simp

theorem vec3_quat (q : ℍ[ℝ]) : (⟨3, [(quat q).i, (quat q).j, (quat q).k]⟩ : Vec XR) = vec (qvec q) [] := by
  simp [vec, arr, qvec, quat, List.ofFn_succ]

/-- C62. `zsl_quat_exp` is the exponential `∑ qⁿ / n!` of the quaternion algebra. -/
theorem quat_exp_correct (q : ℍ[ℝ]) : quatExp (quat q) = ok (quat (NormedSpace.exp q)) := by
  have hq : q = (q.re : ℍ[ℝ]) + ‖q.im‖ • axis q := by
    rw [norm_smul_axis, Quaternion.re_add_im]
  have he := exp_axis q.re ‖q.im‖ (axis_re q) (norm_axis q)
  rw [← hq] at he
  rw [he]
  unfold quatExp
  rw [vec3_quat]
  simp only [vecNorm_vec, vecToUnit_vec, ok_bind, sqrt_qvec]
  obtain ⟨r0, r1, r2⟩ := vec3_rd (unitOf (qvec q)) []
  rw [r0, r1, r2]
  simp only [ok_bind, pure_eq, XR.fin_sin, XR.fin_cos]
  have hr : (quat q).r = XR.fin q.re := rfl
  rw [hr, XR.fin_exp]
  simp only [XR.fin_mul]
  unfold quat axis
  congr 2 <;> simp <;> ring

/-- C62. The exponential of a pure quaternion is a unit quaternion. -/
theorem quat_exp_pure (q : ℍ[ℝ]) (h : q.re = 0) : ∃ u : ℍ[ℝ], quatExp (quat q) = ok (quat u) ∧ ‖u‖ = 1 := by
  refine ⟨_, quat_exp_correct q, ?_⟩
  rw [Quaternion.norm_exp, h, ← Real.exp_eq_exp_ℝ, Real.exp_zero, norm_one]

example : (hq 0 1 2 3).re = 0 := rfl

/-- The principal logarithm. -/
noncomputable def qlog (q : ℍ[ℝ]) : ℍ[ℝ] := (Real.log ‖q‖ : ℍ[ℝ]) + Real.arccos (q.re / ‖q‖) • axis q

theorem re_div_norm_mem (q : ℍ[ℝ]) : q.re / ‖q‖ ∈ Set.Icc (-1 : ℝ) 1 := by
  have h : |q.re / ‖q‖| ≤ 1 := by
    rw [abs_div, abs_norm]
    apply div_le_one_of_le₀ _ (norm_nonneg q)
    refine abs_le_of_sq_le_sq ?_ (norm_nonneg q)
    rw [norm_sq_quat]
    nlinarith [sq_nonneg q.imI, sq_nonneg q.imJ, sq_nonneg q.imK]
  exact abs_le.1 h

theorem quatLog_quat (q : ℍ[ℝ]) (h : q ≠ 0) : quatLog (quat q) = ok (quat (qlog q)) := by
  have hn : 0 < ‖q‖ := norm_pos_iff.2 h
  unfold quatLog
  rw [vec3_quat]
  simp only [vecToUnit_vec, ok_bind, quat_magn_correct]
  obtain ⟨r0, r1, r2⟩ := vec3_rd (unitOf (qvec q)) []
  rw [r0, r1, r2]
  have hr : (quat q).r = XR.fin q.re := rfl
  simp only [ok_bind, pure_eq, hr, XR.fin_div hn.ne', XR.fin_acos (re_div_norm_mem q), XR.fin_log hn, XR.fin_mul]
  unfold quat qlog axis
  congr 2 <;> simp <;> ring

theorem exp_qlog (q : ℍ[ℝ]) (h : q ≠ 0) : NormedSpace.exp (qlog q) = q := by
  have hn : 0 < ‖q‖ := norm_pos_iff.2 h
  obtain ⟨hl, hu⟩ := re_div_norm_mem q
  unfold qlog
  rw [exp_axis _ _ (axis_re q) (norm_axis q), Real.exp_log hn, Real.cos_arccos hl hu, Real.sin_arccos, smul_add, smul_smul]
  have h1 : ‖q‖ * Real.sqrt (1 - (q.re / ‖q‖) ^ 2) = ‖q.im‖ := by
    rw [← Real.sqrt_sq (norm_nonneg q.im)]
    nth_rw 1 [← Real.sqrt_sq hn.le]
    rw [← Real.sqrt_mul (sq_nonneg _)]
    congr 1
    have := norm_sq_quat q
    rw [norm_im_sq]
    field_simp
    linarith
  rw [h1, norm_smul_axis]
  conv_rhs => rw [← Quaternion.re_add_im q]
  congr 1
  rw [Quaternion.smul_coe]
  congr 1
  field_simp

/-- C62. `exp (log q) = q` for every quaternion but zero, and the logarithm is the principal one (its vector part has
norm at most `π`). -/
theorem quat_exp_log (q : ℍ[ℝ]) (h : q ≠ 0) :
    ∃ l : ℍ[ℝ], quatLog (quat q) = ok (quat l) ∧ quatExp (quat l) = ok (quat q) ∧ ‖l.im‖ ≤ Real.pi := by
  refine ⟨qlog q, quatLog_quat q h, ?_, ?_⟩
  · rw [quat_exp_correct, exp_qlog q h]
  · have : (qlog q).im = Real.arccos (q.re / ‖q‖) • axis q := by
      unfold qlog
      ext <;> simp [axis]
    rw [this, norm_smul, norm_axis, mul_one, Real.norm_eq_abs, abs_of_nonneg (Real.arccos_nonneg _)]
    exact Real.arccos_le_pi _

example : hq (-2) 0 0 0 ≠ 0 := by
  intro h
  have := congrArg QuaternionAlgebra.re h
  simp at this

theorem quatPow_quat (q : ℍ[ℝ]) (h : q ≠ 0) (e : ℝ) :
    quatPow (quat q) (XR.fin e) = ok (quat (NormedSpace.exp (e • qlog q))) := by
  unfold quatPow
  rw [quatLog_quat q h, ok_bind, quat_scale_correct, quat_exp_correct]

/-- C62. `zsl_quat_pow` with an integer exponent is the power of the quaternion algebra, for every `q ≠ 0`; in
particular `q^0 = 1`, `q^1 = q` and `q^(-1)` is the inverse. -/
theorem quat_pow_int (q : ℍ[ℝ]) (h : q ≠ 0) (n : ℤ) : quatPow (quat q) (XR.fin n) = ok (quat (q ^ n)) := by
  rw [quatPow_quat q h]
  let +nondep : NormedAlgebra ℚ ℍ[ℝ] := .restrictScalars ℚ ℝ ℍ[ℝ]
  rw [Int.cast_smul_eq_zsmul, NormedSpace.exp_zsmul, exp_qlog q h]

/-- C62. `q^0 = 1` and `q^1 = q`. -/
theorem quat_pow_zero_one (q : ℍ[ℝ]) (h : q ≠ 0) :
    quatPow (quat q) (XR.fin 0) = ok quatIdentity ∧ quatPow (quat q) (XR.fin 1) = ok (quat q) := by
  have h0 := quat_pow_int q h 0
  have h1 := quat_pow_int q h 1
  rw [zpow_zero] at h0
  rw [zpow_one] at h1
  push_cast at h0 h1
  refine ⟨h0.trans ?_, h1⟩
  simp [quatIdentity, quat]

/-- C62. Powers of one quaternion add: `q^(a+b) = q^a q^b`. -/
theorem quat_pow_add (q : ℍ[ℝ]) (h : q ≠ 0) (a b : ℝ) :
    ∃ x y : ℍ[ℝ], quatPow (quat q) (XR.fin a) = ok (quat x) ∧ quatPow (quat q) (XR.fin b) = ok (quat y) ∧
      quatPow (quat q) (XR.fin (a + b)) = ok (quatMult (quat x) (quat y)) := by
  refine ⟨_, _, quatPow_quat q h a, quatPow_quat q h b, ?_⟩
  let +nondep : NormedAlgebra ℚ ℍ[ℝ] := .restrictScalars ℚ ℝ ℍ[ℝ]
  rw [quatPow_quat q h, quat_mult_correct, add_smul, NormedSpace.exp_add_of_commute]
  exact ((Commute.refl _).smul_left a).smul_right b

/-- C62. The power of a unit quaternion is a unit quaternion. -/
theorem quat_pow_unit (q : ℍ[ℝ]) (h : ‖q‖ = 1) (a : ℝ) :
    ∃ x : ℍ[ℝ], quatPow (quat q) (XR.fin a) = ok (quat x) ∧ ‖x‖ = 1 := by
  have h0 : q ≠ 0 := by
    rintro rfl; rw [norm_zero] at h; norm_num at h
  refine ⟨_, quatPow_quat q h0 a, ?_⟩
  have : (a • qlog q).re = 0 := by simp [qlog, h, axis]
  rw [Quaternion.norm_exp, this, ← Real.exp_eq_exp_ℝ, Real.exp_zero, norm_one]

/-! ### C60: `zsl_quat_slerp` as a power -/

theorem re_star_mul (a b : ℍ[ℝ]) : (star a * b).re = qdot a b := by
  rw [Quaternion.re_mul]; simp [qdot]

/-- C60. The formula in the source comment: for unit quaternions `zsl_quat_slerp` is `qa (qa⁻¹ qb)^t`. -/
theorem quat_slerp_eq_pow (a b : ℍ[ℝ]) (t : ℝ) (qi : Quat XR) (ha : ‖a‖ = 1) (hb : ‖b‖ = 1) (h0 : 0 < t) (h1 : t < 1)
    (hp : 1e-6 ≤ |qdot a b - 1|) (hn : 1e-6 ≤ |qdot a b + 1|) :
    ∃ p : Quat XR, quatPow (quatDiff (quat a) (quat b)) (XR.fin t) = ok p ∧
      quatSlerp (quat a) (quat b) (XR.fin t) qi = (0, quatMult (quat a) p) := by
  have ha0 : a ≠ 0 := by
    rintro rfl; rw [norm_zero] at ha; norm_num at ha
  have hb0 : b ≠ 0 := by
    rintro rfl; rw [norm_zero] at hb; norm_num at hb
  have hI := qdot_le ha hb
  have hne1 : qdot a b ≠ 1 := by
    intro h; rw [h] at hp; norm_num at hp
  have hne2 : qdot a b ≠ -1 := by
    intro h; rw [h] at hn; norm_num at hn
  have hs : Real.sin (Real.arccos (qdot a b)) ≠ 0 := by
    rw [Real.sin_arccos]
    apply Real.sqrt_ne_zero'.2
    have a1 : qdot a b < 1 := lt_of_le_of_ne hI.2 hne1
    have a2 : -1 < qdot a b := lt_of_le_of_ne hI.1 (Ne.symm hne2)
    nlinarith
  have hinv : a⁻¹ = star a := by
    have : a⁻¹ = (normSq a)⁻¹ • star a := rfl
    rw [this, normSq_eq_norm_mul_self, ha]; simp
  have hd : ‖a⁻¹ * b‖ = 1 := by rw [norm_mul, norm_inv, ha, hb]; norm_num
  have hd0 : a⁻¹ * b ≠ 0 := mul_ne_zero (inv_ne_zero ha0) hb0
  have hre : (a⁻¹ * b).re = qdot a b := by rw [hinv, re_star_mul]
  rw [quatDiff, quatInv_quat a (by rw [ha]; norm_num), quat_mult_correct]
  refine ⟨_, quatPow_quat _ hd0 t, ?_⟩
  rw [quatSlerp_quat qi ha hb h0 h1 hp hn, quat_mult_correct]
  congr 2
  have hc := Real.cos_arccos hI.1 hI.2
  set φ := Real.arccos (qdot a b) with hφ
  have hlog : t • qlog (a⁻¹ * b) = ((0 : ℝ) : ℍ[ℝ]) + (φ * t) • axis (a⁻¹ * b) := by
    rw [qlog, hd, Real.log_one, hre, div_one, smul_add, smul_smul, mul_comm, ← hφ]
    simp
  have him : Real.sin φ • axis (a⁻¹ * b) = (a⁻¹ * b).im := by
    rw [← norm_smul_axis (a⁻¹ * b)]
    congr 1
    rw [hφ, Real.sin_arccos, ← hre, ← Real.sqrt_sq (norm_nonneg (a⁻¹ * b).im), norm_im_sq]
    congr 1
    have := unit_eq hd
    linarith
  have hax : axis (a⁻¹ * b) = (Real.sin φ)⁻¹ • (a⁻¹ * b - (Real.cos φ : ℍ[ℝ])) := by
    rw [eq_inv_smul_iff₀ hs, him, hc, ← hre]
    conv_rhs => rw [← Quaternion.re_add_im (a⁻¹ * b)]
    simp
  rw [hlog, exp_axis 0 (φ * t) (axis_re _) (norm_axis _), Real.exp_zero, one_smul, hax, smul_smul, mul_add a, mul_smul_comm,
    mul_sub a, mul_inv_cancel_left₀ ha0, Quaternion.mul_coe_eq_smul, Quaternion.mul_coe_eq_smul]
  have e1 : Real.sin (φ * (1 - t)) = Real.sin φ * Real.cos (φ * t) - Real.cos φ * Real.sin (φ * t) := by
    rw [← Real.sin_sub]; congr 1; ring
  rw [e1, smul_sub, smul_smul, sub_div, sub_smul, mul_div_cancel_left₀ _ hs]
  have e2 : Real.cos φ * Real.sin (φ * t) / Real.sin φ = Real.sin (φ * t) * (Real.sin φ)⁻¹ * Real.cos φ := by
    field_simp
  rw [e2, div_eq_mul_inv]
  abel

end Verif
