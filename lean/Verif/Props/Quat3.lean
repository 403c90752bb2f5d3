import Mathlib.Analysis.SpecialFunctions.Trigonometric.Inverse
import Verif.Props.Quat2

/-!
# C60, C61: interpolation and construction of quaternions
-/

namespace Verif

open Out Quaternion

variable {R : Type} [CReal R]

/-! ### C60 -/

theorem quatSum_quat (a b : ℍ[ℝ]) : quatSum (quat a) (quat b) = quat (a + b) := by
  simp [quatSum, quat]

theorem direction_direction (q : ℍ[ℝ]) : direction (direction q) = direction q := by
  by_cases h : ‖q‖ < 1e-6
  · have : direction q = 0 := if_pos h
    rw [this, direction, smul_zero, ite_self]
  · exact direction_of_norm_one (norm_direction (not_lt.1 h))

theorem norm_direction_cases (q : ℍ[ℝ]) : ‖direction q‖ = 1 ∨ direction q = 0 := by
  by_cases h : ‖q‖ < 1e-6
  · exact Or.inr (if_pos h)
  · exact Or.inl (norm_direction (not_lt.1 h))

/-- C60. `zsl_quat_lerp` returns the direction of `(1 - t) a + t b` of the normalised inputs, a unit quaternion unless the
inputs (nearly) cancel. -/
theorem quat_lerp_correct (a b : ℍ[ℝ]) (t : ℝ) (qi : Quat XR) (h0 : 0 ≤ t) (h1 : t ≤ 1) :
    ∃ c : ℍ[ℝ], quatLerp (quat a) (quat b) (XR.fin t) qi = (0, quat c) ∧
      c = direction ((1 - t) • direction a + t • direction b) ∧ (‖c‖ = 1 ∨ c = 0) := by
  refine ⟨_, ?_, rfl, norm_direction_cases _⟩
  unfold quatLerp
  rw [if_neg (by
    rw [Bool.or_eq_true, XR.lit_eq, XR.lit_eq, XR.fin_lt, XR.fin_gt]
    push_cast; push Not; exact ⟨h0, h1⟩)]
  have e : (lit 1 - XR.fin t : XR) = XR.fin (1 - t) := by simp
  simp only [e, quatToUnit_quat, quat_scale_correct, quatSum_quat]

/-- C60. End points of `zsl_quat_lerp`. -/
theorem quat_lerp_ends (a b : ℍ[ℝ]) (qi : Quat XR) :
    quatLerp (quat a) (quat b) (XR.fin 0) qi = (0, quatToUnit (quat a)) ∧
      quatLerp (quat a) (quat b) (XR.fin 1) qi = (0, quatToUnit (quat b)) := by
  obtain ⟨c, hc, rfl, -⟩ := quat_lerp_correct a b 0 qi le_rfl zero_le_one
  obtain ⟨d, hd, rfl, -⟩ := quat_lerp_correct a b 1 qi zero_le_one le_rfl
  rw [hc, hd, quatToUnit_quat, quatToUnit_quat]
  simp [direction_direction]

/-- C60. For unit inputs that are not nearly opposite the result of `zsl_quat_lerp` is a unit quaternion. -/
theorem quat_lerp_unit (a b : ℍ[ℝ]) (t : ℝ) (qi : Quat XR) (h0 : 0 ≤ t) (h1 : t ≤ 1) (ha : ‖a‖ = 1) (hb : ‖b‖ = 1)
    (hab : 2e-6 ≤ ‖a + b‖) :
    ∃ c : ℍ[ℝ], quatLerp (quat a) (quat b) (XR.fin t) qi = (0, quat c) ∧ ‖c‖ = 1 := by
  obtain ⟨c, hc, hcd, -⟩ := quat_lerp_correct a b t qi h0 h1
  refine ⟨c, hc, ?_⟩
  rw [hcd]
  apply norm_direction
  rw [direction_of_norm_one ha, direction_of_norm_one hb]
  -- ‖(1-t)a + tb‖² is least at t = 1/2
  have hsq : ∀ s : ℝ, ‖(1 - s) • a + s • b‖ ^ 2 = 1 - s * (1 - s) * (4 - ‖a + b‖ ^ 2) := by
    intro s
    have ua := unit_eq ha
    have ub := unit_eq hb
    rw [norm_sq_quat, norm_sq_quat]
    simp only [Quaternion.re_add, Quaternion.imI_add, Quaternion.imJ_add, Quaternion.imK_add, re_smul, imI_smul, imJ_smul, imK_smul, smul_eq_mul]
    linear_combination ((1 - s) ^ 2 - s * (1 - s)) * ua + (s ^ 2 - s * (1 - s)) * ub
  have hle : ‖a + b‖ ≤ 2 := by
    calc ‖a + b‖ ≤ ‖a‖ + ‖b‖ := norm_add_le _ _
      _ = 2 := by rw [ha, hb]; norm_num
  have h2 := hsq t
  have : (1e-6 : ℝ) ^ 2 ≤ ‖(1 - t) • a + t • b‖ ^ 2 := by
    rw [h2]
    have : t * (1 - t) ≤ 1 / 4 := by nlinarith [sq_nonneg (2 * t - 1)]
    have h4 : 0 ≤ 4 - ‖a + b‖ ^ 2 := by nlinarith [norm_nonneg (a + b)]
    have h5 : (2e-6 : ℝ) ^ 2 ≤ ‖a + b‖ ^ 2 := pow_le_pow_left₀ (by norm_num) hab 2
    nlinarith
  exact le_of_sq_le_sq this (norm_nonneg _)

/-- C60. `t` outside `[0, 1]` is refused by both; nothing is written. -/
theorem quat_lerp_slerp_reject (a b : Quat XR) (t : ℝ) (qi : Quat XR) (h : t < 0 ∨ 1 < t) :
    quatLerp a b (XR.fin t) qi = (-EINVAL, qi) ∧ quatSlerp a b (XR.fin t) qi = (-EINVAL, qi) := by
  have hc : (CReal.lt (XR.fin t) (lit 0) || CReal.gt (XR.fin t) (lit 1)) = true := by
    rw [Bool.or_eq_true, XR.lit_eq, XR.lit_eq, XR.fin_lt, XR.fin_gt]
    push_cast; exact h
  exact ⟨if_pos hc, if_pos hc⟩

/-- The dot product `zsl_quat_slerp` computes. -/
def qdot (a b : ℍ[ℝ]) : ℝ := a.re * b.re + a.imI * b.imI + a.imJ * b.imJ + a.imK * b.imK

theorem qdot_le {a b : ℍ[ℝ]} (ha : ‖a‖ = 1) (hb : ‖b‖ = 1) : qdot a b ∈ Set.Icc (-1 : ℝ) 1 := by
  have ua := unit_eq ha
  have ub := unit_eq hb
  constructor <;> unfold qdot <;>
    nlinarith [sq_nonneg (a.re + b.re), sq_nonneg (a.imI + b.imI), sq_nonneg (a.imJ + b.imJ), sq_nonneg (a.imK + b.imK),
      sq_nonneg (a.re - b.re), sq_nonneg (a.imI - b.imI), sq_nonneg (a.imJ - b.imJ), sq_nonneg (a.imK - b.imK)]

theorem slerp_guards {t : ℝ} (h0 : 0 ≤ t) (h1 : t ≤ 1) :
    ¬(CReal.lt (XR.fin t) (lit 0) || CReal.gt (XR.fin t) (lit 1)) = true := by
  rw [Bool.or_eq_true, XR.lit_eq, XR.lit_eq, XR.fin_lt, XR.fin_gt]
  push_cast; push Not; exact ⟨h0, h1⟩

theorem quatSlerp_quat {a b : ℍ[ℝ]} {t : ℝ} (qi : Quat XR) (ha : ‖a‖ = 1) (hb : ‖b‖ = 1) (h0 : 0 < t) (h1 : t < 1)
    (hp : 1e-6 ≤ |qdot a b - 1|) (hn : 1e-6 ≤ |qdot a b + 1|) :
    quatSlerp (quat a) (quat b) (XR.fin t) qi = (0, quat (
      (Real.sin (Real.arccos (qdot a b) * (1 - t)) / Real.sin (Real.arccos (qdot a b))) • a +
      (Real.sin (Real.arccos (qdot a b) * t) / Real.sin (Real.arccos (qdot a b))) • b)) := by
  have hl : (((1e-6 : ℚ)) : ℝ) = 1e-6 := by norm_num
  have hI := qdot_le ha hb
  have hne1 : qdot a b ≠ 1 := by
    intro h; rw [h] at hp; norm_num at hp
  have hne2 : qdot a b ≠ -1 := by
    intro h; rw [h] at hn; norm_num at hn
  have hs : Real.sin (Real.arccos (qdot a b)) ≠ 0 := by
    rw [Real.sin_arccos]
    apply Real.sqrt_ne_zero'.2
    have a1 : qdot a b < 1 := lt_of_le_of_ne hI.2 hne1
    have a2 : -1 < qdot a b := lt_of_le_of_ne hI.1 (Ne.symm hne2)
    nlinarith
  have hdot : (quat a).r * (quat b).r + (quat a).i * (quat b).i + (quat a).j * (quat b).j + (quat a).k * (quat b).k =
      XR.fin (qdot a b) := by simp [quat, qdot]
  unfold quatSlerp
  rw [if_neg (slerp_guards h0.le h1.le)]
  simp only [quat_to_unit_idem a ha, quat_to_unit_idem b hb, hdot]
  rw [if_neg (by simp [h0.ne']), if_neg (by simp [h1.ne])]
  rw [if_neg (by
    rw [XR.lit_eq, XR.fin_sub, XR.fin_abs, XR.lit_eq, XR.fin_lt, hl]; push_cast; exact not_lt.2 hp)]
  rw [if_neg (by
    rw [XR.lit_eq, XR.fin_add, XR.fin_abs, XR.lit_eq, XR.fin_lt, hl]; push_cast; exact not_lt.2 hn)]
  have e : (lit 1 - XR.fin t : XR) = XR.fin (1 - t) := by simp
  simp only [XR.fin_acos hI, XR.fin_sin, XR.fin_mul, e, XR.fin_div hs, quat_scale_correct, quatSum_quat]

theorem sq_norm_comb {a b : ℍ[ℝ]} (ha : ‖a‖ = 1) (hb : ‖b‖ = 1) (x y : ℝ) :
    ‖x • a + y • b‖ ^ 2 = x ^ 2 + y ^ 2 + 2 * x * y * qdot a b := by
  have ua := unit_eq ha
  have ub := unit_eq hb
  rw [norm_sq_quat]
  simp only [Quaternion.re_add, Quaternion.imI_add, Quaternion.imJ_add, Quaternion.imK_add, re_smul, imI_smul, imJ_smul, imK_smul, smul_eq_mul]
  unfold qdot
  linear_combination x ^ 2 * ua + y ^ 2 * ub

theorem qdot_comb {a b : ℍ[ℝ]} (c : ℍ[ℝ]) (x y : ℝ) : qdot (x • a + y • b) c = x * qdot a c + y * qdot b c := by
  unfold qdot
  simp only [Quaternion.re_add, Quaternion.imI_add, Quaternion.imJ_add, Quaternion.imK_add, re_smul, imI_smul, imJ_smul, imK_smul, smul_eq_mul]
  ring

theorem qdot_self {a : ℍ[ℝ]} (ha : ‖a‖ = 1) : qdot a a = 1 := by
  have := unit_eq ha
  unfold qdot; linarith

theorem qdot_comm (a b : ℍ[ℝ]) : qdot a b = qdot b a := by unfold qdot; ring

/-- C60. `zsl_quat_slerp` of unit quaternions moves on the unit sphere along the great circle at constant speed: with
`φ` the angle between `a` and `b`, the result is a unit quaternion at angle `t φ` from `a` and `(1 - t) φ` from `b`. -/
theorem quat_slerp_correct (a b : ℍ[ℝ]) (t : ℝ) (qi : Quat XR) (ha : ‖a‖ = 1) (hb : ‖b‖ = 1) (h0 : 0 < t) (h1 : t < 1)
    (hp : 1e-6 ≤ |qdot a b - 1|) (hn : 1e-6 ≤ |qdot a b + 1|) :
    ∃ c : ℍ[ℝ], quatSlerp (quat a) (quat b) (XR.fin t) qi = (0, quat c) ∧ ‖c‖ = 1 ∧
      Real.arccos (qdot a c) = t * Real.arccos (qdot a b) ∧ Real.arccos (qdot c b) = (1 - t) * Real.arccos (qdot a b) := by
  have hI := qdot_le ha hb
  have hne1 : qdot a b ≠ 1 := by
    intro h; rw [h] at hp; norm_num at hp
  have hne2 : qdot a b ≠ -1 := by
    intro h; rw [h] at hn; norm_num at hn
  refine ⟨_, quatSlerp_quat qi ha hb h0 h1 hp hn, ?_⟩
  have hd : qdot a b = Real.cos (Real.arccos (qdot a b)) := (Real.cos_arccos hI.1 hI.2).symm
  have hs : Real.sin (Real.arccos (qdot a b)) ≠ 0 := by
    rw [Real.sin_arccos]
    apply Real.sqrt_ne_zero'.2
    have a1 : qdot a b < 1 := lt_of_le_of_ne hI.2 hne1
    have a2 : -1 < qdot a b := lt_of_le_of_ne hI.1 (Ne.symm hne2)
    nlinarith
  have hp0 := Real.arccos_nonneg (qdot a b)
  have hpp := Real.arccos_le_pi (qdot a b)
  set φ := Real.arccos (qdot a b) with hφ
  have hsc := Real.sin_sq_add_cos_sq φ
  have e1 : Real.sin (φ * (1 - t)) = Real.sin φ * Real.cos (φ * t) - Real.cos φ * Real.sin (φ * t) := by
    rw [← Real.sin_sub]; congr 1; ring
  have hst := Real.sin_sq_add_cos_sq (φ * t)
  have hca : qdot (((Real.sin (φ * (1 - t)) / Real.sin φ) • a + (Real.sin (φ * t) / Real.sin φ) • b)) a =
      Real.cos (φ * t) := by
    rw [qdot_comb, qdot_self ha, qdot_comm b a, hd, e1]
    field_simp
    ring
  have hcb : qdot (((Real.sin (φ * (1 - t)) / Real.sin φ) • a + (Real.sin (φ * t) / Real.sin φ) • b)) b =
      Real.cos (φ * (1 - t)) := by
    have e2 : Real.cos (φ * (1 - t)) = Real.cos φ * Real.cos (φ * t) + Real.sin φ * Real.sin (φ * t) := by
      rw [← Real.cos_sub]; congr 1; ring
    rw [qdot_comb, qdot_self hb, hd, e1, e2]
    field_simp
    linear_combination (Real.sin (φ * t)) * hsc.symm
  refine ⟨?_, ?_, ?_⟩
  · rw [← pow_eq_one_iff_of_nonneg (norm_nonneg _) two_ne_zero, sq_norm_comb ha hb, hd, e1]
    field_simp
    linear_combination (Real.sin φ ^ 2) * hst + (-(Real.sin (φ * t)) ^ 2) * hsc
  · rw [qdot_comm, hca, Real.arccos_cos (by positivity) (by nlinarith)]; ring
  · rw [hcb, Real.arccos_cos (mul_nonneg hp0 (by linarith)) (by nlinarith)]; ring

example : ∃ a b : ℍ[ℝ], ‖a‖ = 1 ∧ ‖b‖ = 1 ∧ 1e-6 ≤ |qdot a b - 1| ∧ 1e-6 ≤ |qdot a b + 1| := by
  refine ⟨1, hq (3 / 5) 0 (4 / 5) 0, norm_one, norm_hq_345, ?_, ?_⟩
  · simp only [qdot, hq_re]; rw [abs_of_neg] <;> norm_num
  · simp only [qdot, hq_re]; rw [abs_of_pos] <;> norm_num

/-- C60. End points of `zsl_quat_slerp`. -/
theorem quat_slerp_ends (a b qi : Quat XR) :
    quatSlerp a b (XR.fin 0) qi = (0, quatToUnit a) ∧ quatSlerp a b (XR.fin 1) qi = (0, quatToUnit b) := by
  unfold quatSlerp
  rw [if_neg (slerp_guards le_rfl zero_le_one), if_neg (slerp_guards zero_le_one le_rfl)]
  constructor
  · simp only
    rw [if_pos (by simp)]
  · simp only
    rw [if_neg (by simp), if_pos (by simp)]

/-- C60. Nearly equal inputs give the start. -/
theorem quat_slerp_equal (a b : ℍ[ℝ]) (t : ℝ) (qi : Quat XR) (ha : ‖a‖ = 1) (hb : ‖b‖ = 1) (h0 : 0 < t) (h1 : t < 1)
    (h : |qdot a b - 1| < 1e-6) : quatSlerp (quat a) (quat b) (XR.fin t) qi = (0, quat a) := by
  have hl : (((1e-6 : ℚ)) : ℝ) = 1e-6 := by norm_num
  have hdot : (quat a).r * (quat b).r + (quat a).i * (quat b).i + (quat a).j * (quat b).j + (quat a).k * (quat b).k =
      XR.fin (qdot a b) := by simp [quat, qdot]
  unfold quatSlerp
  rw [if_neg (slerp_guards h0.le h1.le)]
  simp only [quat_to_unit_idem a ha, quat_to_unit_idem b hb, hdot]
  rw [if_neg (by simp [h0.ne']), if_neg (by simp [h1.ne])]
  rw [if_pos (by
    rw [XR.lit_eq, XR.fin_sub, XR.fin_abs, XR.lit_eq, XR.fin_lt, hl]; push_cast; exact h)]

example (t : ℝ) (qi : Quat XR) (h0 : 0 < t) (h1 : t < 1) : quatSlerp (quat 1) (quat 1) (XR.fin t) qi = (0, quat 1) :=
  quat_slerp_equal 1 1 t qi norm_one norm_one h0 h1 (by rw [qdot_self norm_one]; norm_num)

/-- C60. (Nearly) opposite unit quaternions are refused for `0 < t < 1`; nothing is written. -/
theorem quat_slerp_opposite (a b : ℍ[ℝ]) (t : ℝ) (qi : Quat XR) (ha : ‖a‖ = 1) (hb : ‖b‖ = 1) (h0 : 0 < t) (h1 : t < 1)
    (h : |qdot a b + 1| < 1e-6) : quatSlerp (quat a) (quat b) (XR.fin t) qi = (-EINVAL, qi) := by
  have hl : (((1e-6 : ℚ)) : ℝ) = 1e-6 := by norm_num
  have hdot : (quat a).r * (quat b).r + (quat a).i * (quat b).i + (quat a).j * (quat b).j + (quat a).k * (quat b).k =
      XR.fin (qdot a b) := by simp [quat, qdot]
  have hlt := (abs_lt.1 h).2
  unfold quatSlerp
  rw [if_neg (slerp_guards h0.le h1.le)]
  simp only [quat_to_unit_idem a ha, quat_to_unit_idem b hb, hdot]
  rw [if_neg (by simp [h0.ne']), if_neg (by simp [h1.ne])]
  rw [if_neg (by
    rw [XR.lit_eq, XR.fin_sub, XR.fin_abs, XR.lit_eq, XR.fin_lt, hl]; push_cast
    rw [abs_of_neg (by linarith)]; linarith)]
  rw [if_pos (by
    rw [XR.lit_eq, XR.fin_add, XR.fin_abs, XR.lit_eq, XR.fin_lt, hl]; push_cast; exact h)]

example (t : ℝ) (qi : Quat XR) (h0 : 0 < t) (h1 : t < 1) :
    quatSlerp (quat 1) (quat (-1)) (XR.fin t) qi = (-EINVAL, qi) :=
  quat_slerp_opposite 1 (-1) t qi norm_one (by rw [norm_neg, norm_one]) h0 h1 (by norm_num [qdot])

/-! ### C61 -/

/-- C61. `zsl_quat_from_euler` is the product of the rotations about x (roll), y (pitch) and z (yaw). -/
theorem quat_from_euler_correct (x y z : ℝ) :
    quatFromEuler ⟨XR.fin x, XR.fin y, XR.fin z⟩ = quat (hq (Real.cos (x / 2)) (Real.sin (x / 2)) 0 0 *
      hq (Real.cos (y / 2)) 0 (Real.sin (y / 2)) 0 * hq (Real.cos (z / 2)) 0 0 (Real.sin (z / 2))) := by
  have hl : (((0.5 : ℚ)) : ℝ) = 1 / 2 := by norm_num
  simp only [quatFromEuler, XR.lit_eq, hl, XR.fin_mul, XR.fin_cos, XR.fin_sin, XR.fin_sub, XR.fin_add, mul_one_div]
  simp [quat, Quaternion.re_mul, Quaternion.imI_mul, Quaternion.imJ_mul, Quaternion.imK_mul]
  ring

theorem norm_hq_cs (t : ℝ) : ‖hq (Real.cos t) (Real.sin t) 0 0‖ = 1 ∧ ‖hq (Real.cos t) 0 (Real.sin t) 0‖ = 1 ∧
    ‖hq (Real.cos t) 0 0 (Real.sin t)‖ = 1 := by
  have := Real.sin_sq_add_cos_sq t
  refine ⟨?_, ?_, ?_⟩ <;> rw [norm_quat, Real.sqrt_eq_one] <;> simp <;> linarith

/-- C61. The quaternion of any Euler angles is a unit quaternion. -/
theorem quat_from_euler_unit (x y z : ℝ) :
    ∃ q : ℍ[ℝ], quatFromEuler ⟨XR.fin x, XR.fin y, XR.fin z⟩ = quat q ∧ ‖q‖ = 1 :=
  ⟨_, quat_from_euler_correct x y z, by
    rw [norm_mul, norm_mul, (norm_hq_cs _).1, (norm_hq_cs _).2.1, (norm_hq_cs _).2.2]; norm_num⟩

theorem vec3_rd (x : Fin 3 → ℝ) (t : List XR) : rd (vec x t).data 0 = ok (XR.fin (x 0)) ∧
    rd (vec x t).data 1 = ok (XR.fin (x 1)) ∧ rd (vec x t).data 2 = ok (XR.fin (x 2)) :=
  ⟨(vec_is x t).rd 0, (vec_is x t).rd 1, (vec_is x t).rd 2⟩

theorem quatFromAngVel_vec (w : Fin 3 → ℝ) (s : List XR) (q : ℍ[ℝ]) (t : ℝ) (qout : Quat XR) (ht : 0 ≤ t) :
    quatFromAngVel (vec w s) (quat q) (XR.fin t) qout = ok (0, quat (direction (
      (1 + (t / 2) • hq 0 (w 0) (w 1) (w 2)) * direction q))) := by
  unfold quatFromAngVel
  obtain ⟨r0, r1, r2⟩ := vec3_rd w s
  have hl : (((0.5 : ℚ)) : ℝ) = 1 / 2 := by norm_num
  rw [if_neg (by simpa using ht), r0, r1, r2]
  simp only [ok_bind, pure_eq, quatToUnit_quat]
  have e : (⟨lit 0, XR.fin (w 0), XR.fin (w 1), XR.fin (w 2)⟩ : Quat XR) = quat (hq 0 (w 0) (w 1) (w 2)) := by
    simp [quat]
  have e2 : (lit 0.5 * XR.fin t : XR) = XR.fin (t / 2) := by
    rw [XR.lit_eq, hl, XR.fin_mul]; congr 1; ring
  rw [e, e2, quat_mult_correct, quat_scale_correct, quatSum_quat, quatToUnit_quat]
  congr 5
  rw [add_mul, one_mul, smul_mul_assoc]

/-- C61. `zsl_quat_from_ang_vel` integrates one Euler step of `q' = ½ ω q` and normalises: of any quaternion of magnitude
at least `1e-6`, any angular velocity and any nonnegative time it makes a unit quaternion, the direction of
`(1 + ½ t ω) q`. -/
theorem quat_from_ang_vel_correct (w : Fin 3 → ℝ) (s : List XR) (q : ℍ[ℝ]) (t : ℝ) (qout : Quat XR) (ht : 0 ≤ t)
    (hn : 1e-6 ≤ ‖q‖) :
    ∃ c : ℍ[ℝ], quatFromAngVel (vec w s) (quat q) (XR.fin t) qout = ok (0, quat c) ∧ ‖c‖ = 1 ∧
      ∃ k : ℝ, 0 < k ∧ (1 + (t / 2) • hq 0 (w 0) (w 1) (w 2)) * q = k • c := by
  refine ⟨_, quatFromAngVel_vec w s q t qout ht, ?_⟩
  have h0 : 0 < ‖q‖ := lt_of_lt_of_le (by norm_num) hn
  have h1 : 1 ≤ ‖1 + (t / 2) • hq 0 (w 0) (w 1) (w 2)‖ := by
    rw [← abs_of_nonneg (norm_nonneg (1 + (t / 2) • hq 0 (w 0) (w 1) (w 2))), ← one_le_sq_iff_one_le_abs, norm_sq_quat]
    simp only [Quaternion.re_add, Quaternion.imI_add, Quaternion.imJ_add, Quaternion.imK_add, Quaternion.re_one,
      Quaternion.imI_one, Quaternion.imJ_one, Quaternion.imK_one, re_smul, imI_smul, imJ_smul, imK_smul, smul_eq_mul,
      hq_re, hq_imI, hq_imJ, hq_imK]
    nlinarith [sq_nonneg (t / 2 * w 0), sq_nonneg (t / 2 * w 1), sq_nonneg (t / 2 * w 2)]
  have h2 : 1 ≤ ‖(1 + (t / 2) • hq 0 (w 0) (w 1) (w 2)) * direction q‖ := by
    rw [norm_mul, norm_direction hn, mul_one]; exact h1
  have h3 : (1e-6 : ℝ) ≤ ‖(1 + (t / 2) • hq 0 (w 0) (w 1) (w 2)) * direction q‖ := le_trans (by norm_num) h2
  refine ⟨norm_direction h3, ‖q‖ * ‖(1 + (t / 2) • hq 0 (w 0) (w 1) (w 2)) * direction q‖, by positivity, ?_⟩
  have hdd : direction ((1 + (t / 2) • hq 0 (w 0) (w 1) (w 2)) * direction q) = _ := if_neg (not_lt.2 h3)
  rw [hdd, mul_smul, smul_inv_smul₀ (by positivity), ← mul_smul_comm]
  rw [direction, if_neg (not_lt.2 hn), smul_inv_smul₀ h0.ne']

example : (1e-6 : ℝ) ≤ ‖(1 : ℍ[ℝ])‖ := by rw [norm_one]; norm_num

/-- C61. `zsl_quat_from_ang_mom` is `zsl_quat_from_ang_vel` of the momentum divided by the (positive) moment of inertia. -/
theorem quat_from_ang_mom_correct (junk : ℕ → XR) (l : Fin 3 → ℝ) (s : List XR) (q : ℍ[ℝ]) (i t : ℝ) (qout : Quat XR)
    (ht : 0 ≤ t) (hi : 0 < i) :
    quatFromAngMom junk (vec l s) (quat q) (XR.fin i) (XR.fin t) qout =
      quatFromAngVel (vec (fun a => l a / i) []) (quat q) (XR.fin t) qout := by
  unfold quatFromAngMom
  rw [if_neg (by simpa using ⟨ht, hi⟩), vecUninit_eq, vec_eq_vecOf l s, vecCopy_vec, ok_bind]
  simp only
  rw [← vec_eq_vecOf, vecScalarDiv_vec _ _ _ hi.ne', ok_bind]
  simp only
  rw [quatFromAngVel_vec _ _ _ _ _ ht]
  rfl

/-- C61. Wrong dimensions, negative times and nonpositive moments of inertia are refused; nothing is written. -/
theorem quat_from_ang_rejects (junk : ℕ → XR) (w : Vec XR) (qin : Quat XR) (i t : ℝ) (qout : Quat XR) :
    ((w.sz ≠ 3 ∨ t < 0) → quatFromAngVel w qin (XR.fin t) qout = ok (-EINVAL, qout)) ∧
      ((w.sz ≠ 3 ∨ t < 0 ∨ i ≤ 0) → quatFromAngMom junk w qin (XR.fin i) (XR.fin t) qout = ok (-EINVAL, qout)) := by
  constructor
  · intro h
    exact if_pos (by simpa using h)
  · intro h
    exact if_pos (by simpa using h)

theorem quatFromAxisAngle_vec (junk : ℕ → XR) (a : Fin 3 → ℝ) (s : List XR) (b : ℝ) (q0 : Quat XR)
    (ha : 1e-6 ≤ Real.sqrt (a ⬝ᵥ a)) :
    quatFromAxisAngle junk (vec a s) (XR.fin b) q0 = ok (0, quat (hq (Real.cos (b / 2))
      (a 0 / Real.sqrt (a ⬝ᵥ a) * Real.sin (b / 2)) (a 1 / Real.sqrt (a ⬝ᵥ a) * Real.sin (b / 2))
      (a 2 / Real.sqrt (a ⬝ᵥ a) * Real.sin (b / 2)))) := by
  unfold quatFromAxisAngle
  obtain ⟨r0, r1, r2⟩ := vec3_rd a s
  have hl : (((1e-6 : ℚ)) : ℝ) = 1e-6 := by norm_num
  have hl2 : (((2 : ℚ)) : ℝ) = 2 := by norm_num
  have hd : a 0 * a 0 + a 1 * a 1 + a 2 * a 2 = a ⬝ᵥ a := by
    simp [dotProduct, Fin.sum_univ_three]
  have hnn : 0 ≤ a ⬝ᵥ a := by rw [← hd]; nlinarith [mul_self_nonneg (a 0), mul_self_nonneg (a 1), mul_self_nonneg (a 2)]
  rw [if_neg (by simp), r0, r1, r2]
  simp only [ok_bind, pure_eq, XR.fin_mul, XR.fin_add, hd, XR.fin_sqrt hnn]
  rw [if_neg (by rw [XR.lit_eq, XR.fin_lt, hl]; exact not_lt.2 ha)]
  rw [vecUninit_eq, vec_eq_vecOf a s, vecCopy_vec, ok_bind]
  simp only
  have hne : Real.sqrt (a ⬝ᵥ a) ≠ 0 := (lt_of_lt_of_le (by norm_num) ha).ne'
  rw [← vec_eq_vecOf, vecScalarDiv_vec _ _ _ hne, ok_bind]
  simp only
  obtain ⟨s0, s1, s2⟩ := vec3_rd (fun i => a i / Real.sqrt (a ⬝ᵥ a)) []
  rw [s0, s1, s2]
  simp only [ok_bind, XR.lit_eq, hl2, XR.fin_div (two_ne_zero' ℝ), XR.fin_cos, XR.fin_sin, XR.fin_mul]
  rfl

/-- C61. `zsl_quat_from_axis_angle` of an axis of norm at least `1e-6` is the unit quaternion `cos (b/2) + sin (b/2) n`
with `n` the unit vector of the axis. -/
theorem quat_from_axis_angle_correct (junk : ℕ → XR) (a : Fin 3 → ℝ) (s : List XR) (b : ℝ) (q0 : Quat XR)
    (ha : 1e-6 ≤ Real.sqrt (a ⬝ᵥ a)) :
    ∃ n : Fin 3 → ℝ, n ⬝ᵥ n = 1 ∧ a = Real.sqrt (a ⬝ᵥ a) • n ∧
      quatFromAxisAngle junk (vec a s) (XR.fin b) q0 =
        ok (0, quat (hq (Real.cos (b / 2)) (n 0 * Real.sin (b / 2)) (n 1 * Real.sin (b / 2)) (n 2 * Real.sin (b / 2)))) ∧
      ‖hq (Real.cos (b / 2)) (n 0 * Real.sin (b / 2)) (n 1 * Real.sin (b / 2)) (n 2 * Real.sin (b / 2))‖ = 1 := by
  have h0 : 0 < Real.sqrt (a ⬝ᵥ a) := lt_of_lt_of_le (by norm_num) ha
  have hn : (fun i => a i / Real.sqrt (a ⬝ᵥ a)) ⬝ᵥ (fun i => a i / Real.sqrt (a ⬝ᵥ a)) = 1 := by
    have hsq : Real.sqrt (a ⬝ᵥ a) ^ 2 = a ⬝ᵥ a := Real.sq_sqrt (Real.sqrt_pos.1 h0).le
    have : (fun i => a i / Real.sqrt (a ⬝ᵥ a)) ⬝ᵥ (fun i => a i / Real.sqrt (a ⬝ᵥ a)) =
        (a ⬝ᵥ a) / Real.sqrt (a ⬝ᵥ a) ^ 2 := by
      generalize Real.sqrt (a ⬝ᵥ a) = r
      simp only [dotProduct, Fin.sum_univ_three]
      ring
    rw [this, hsq, div_self (Real.sqrt_pos.1 h0).ne']
  refine ⟨fun i => a i / Real.sqrt (a ⬝ᵥ a), hn, ?_, quatFromAxisAngle_vec junk a s b q0 ha, ?_⟩
  · funext i
    simp only [Pi.smul_apply, smul_eq_mul]
    field_simp
  · rw [norm_quat, Real.sqrt_eq_one, hq_re, hq_imI, hq_imJ, hq_imK]
    have hsc := Real.sin_sq_add_cos_sq (b / 2)
    generalize Real.sqrt (a ⬝ᵥ a) = r at hn ⊢
    simp only [dotProduct, Fin.sum_univ_three] at hn
    linear_combination hsc + Real.sin (b / 2) ^ 2 * hn

example : (1e-6 : ℝ) ≤ Real.sqrt (![0, 0, 2] ⬝ᵥ ![0, 0, 2]) := by
  apply Real.le_sqrt_of_sq_le
  simp [dotProduct, Fin.sum_univ_three]
  norm_num

/-- C61. An axis shorter than `1e-6` gives the zero quaternion. -/
theorem quat_from_axis_angle_zero (junk : ℕ → XR) (a : Fin 3 → ℝ) (s : List XR) (b : XR) (q0 : Quat XR)
    (ha : Real.sqrt (a ⬝ᵥ a) < 1e-6) : quatFromAxisAngle junk (vec a s) b q0 = ok (0, quat 0) := by
  unfold quatFromAxisAngle
  obtain ⟨r0, r1, r2⟩ := vec3_rd a s
  have hl : (((1e-6 : ℚ)) : ℝ) = 1e-6 := by norm_num
  have hd : a 0 * a 0 + a 1 * a 1 + a 2 * a 2 = a ⬝ᵥ a := by
    simp [dotProduct, Fin.sum_univ_three]
  have hnn : 0 ≤ a ⬝ᵥ a := by rw [← hd]; nlinarith [mul_self_nonneg (a 0), mul_self_nonneg (a 1), mul_self_nonneg (a 2)]
  rw [if_neg (by simp), r0, r1, r2]
  simp only [ok_bind, pure_eq, XR.fin_mul, XR.fin_add, hd, XR.fin_sqrt hnn]
  rw [if_pos (by rw [XR.lit_eq, XR.fin_lt, hl]; exact ha)]
  simp [quat]

example : Real.sqrt ((0 : Fin 3 → ℝ) ⬝ᵥ 0) < 1e-6 := by simp; norm_num

/-- C61. An axis that is not three-dimensional is refused; nothing is written. -/
theorem quat_axis_angle_shape (junk : ℕ → R) (a : Vec R) (b : R) (q : Quat R) (h : a.sz ≠ 3) :
    quatFromAxisAngle junk a b q = ok (-EINVAL, q) ∧ quatToAxisAngle q a b = ok (-EINVAL, a, b) :=
  ⟨if_pos h, if_pos h⟩

end Verif
