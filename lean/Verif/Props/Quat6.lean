import Verif.Props.Quat5

/-!
# C86: Euler angles near gimbal lock
-/

namespace Verif

open Out Quaternion Matrix

/-! ### Distance of rotation matrices and of quaternions -/

/-- The squared distance of two rotation matrices in terms of the quaternions. -/
theorem rotOf_dist {p q : ℍ[ℝ]} (hp : ‖p‖ = 1) (hq : ‖q‖ = 1) :
    ∑ i, ∑ j, (rotOf p i j - rotOf q i j) ^ 2 = 8 * (1 - qdot p q ^ 2) := by
  have up := unit_eq hp
  have uq := unit_eq hq
  have key : ∀ u : ℍ[ℝ], ‖u‖ = 1 → ∑ i, ∑ j, rotOf u i j ^ 2 = 3 := by
    intro u hu
    have o := rotOf_orth hu
    have c : ∀ i j, ((rotOf u)ᵀ * rotOf u) i j = (1 : Matrix (Fin 3) (Fin 3) ℝ) i j := fun i j => by rw [o]
    have c0 := c 0 0; have c1 := c 1 1; have c2 := c 2 2
    simp only [Matrix.mul_apply, Fin.sum_univ_three, Matrix.transpose_apply, Matrix.one_apply_eq] at c0 c1 c2
    simp only [Fin.sum_univ_three]
    nlinarith
  have kx : ∑ i, ∑ j, rotOf p i j * rotOf q i j = 4 * qdot p q ^ 2 - 1 := by
    simp only [Fin.sum_univ_three, qdot]
    simp [rotOf]
    have e1 : p.re ^ 2 = 1 - p.imI ^ 2 - p.imJ ^ 2 - p.imK ^ 2 := by linarith
    have e2 : q.re ^ 2 = 1 - q.imI ^ 2 - q.imJ ^ 2 - q.imK ^ 2 := by linarith
    linear_combination (-4 * q.re ^ 2) * e1 - 4 * (1 - p.imI ^ 2 - p.imJ ^ 2 - p.imK ^ 2) * e2
  have e : ∑ i, ∑ j, (rotOf p i j - rotOf q i j) ^ 2 =
      ∑ i, ∑ j, rotOf p i j ^ 2 + ∑ i, ∑ j, rotOf q i j ^ 2 - 2 * ∑ i, ∑ j, rotOf p i j * rotOf q i j := by
    simp only [Fin.sum_univ_three]; ring
  rw [e, key p hp, key q hq, kx]; ring

/-- Unit quaternions whose matrices are close are close up to sign. -/
theorem unit_close {p q : ℍ[ℝ]} (hp : ‖p‖ = 1) (hq : ‖q‖ = 1) {d : ℝ} (hd : 0 ≤ d)
    (h : ∑ i, ∑ j, (rotOf p i j - rotOf q i j) ^ 2 ≤ 4 * d ^ 2) : ‖p - q‖ ≤ d ∨ ‖p + q‖ ≤ d := by
  rw [rotOf_dist hp hq] at h
  have up := unit_eq hp
  have uq := unit_eq hq
  have hm : ‖p - q‖ ^ 2 = 2 - 2 * qdot p q := by
    rw [norm_sq_quat]
    simp only [Quaternion.re_sub, Quaternion.imI_sub, Quaternion.imJ_sub, Quaternion.imK_sub]
    unfold qdot
    linear_combination up + uq
  have ha : ‖p + q‖ ^ 2 = 2 + 2 * qdot p q := by
    rw [norm_sq_quat]
    simp only [Quaternion.re_add, Quaternion.imI_add, Quaternion.imJ_add, Quaternion.imK_add]
    unfold qdot
    linear_combination up + uq
  have b1 : qdot p q ≤ 1 := by nlinarith [sq_nonneg ‖p - q‖]
  have b2 : -1 ≤ qdot p q := by nlinarith [sq_nonneg ‖p + q‖]
  rcases le_total 0 (qdot p q) with h0 | h0
  · left
    apply abs_le_of_sq_le_sq' _ hd |>.2
    rw [hm]; nlinarith
  · right
    apply abs_le_of_sq_le_sq' _ hd |>.2
    rw [ha]; nlinarith

/-! ### The branch of gimbal lock -/

/-- `zsl_quat_to_euler` of a unit quaternion inside the gimbal-lock band. -/
theorem quatToEuler_band {q : ℍ[ℝ]} (h : ‖q‖ = 1) (hb : 1 - 2e-6 < |rotOf q 0 2|) :
    quatToEuler (quat q) = ⟨XR.fin (Complex.arg ⟨rotOf q 1 1, rotOf q 2 1⟩), XR.fin (Real.arcsin (rotOf q 0 2)), XR.fin 0⟩ := by
  have hl : (((1e-6 : ℚ)) : ℝ) = 1e-6 := by norm_num
  have hl5 : (((0.5 : ℚ)) : ℝ) = 1 / 2 := by norm_num
  have hl2 : (((2 : ℚ)) : ℝ) = 2 := by norm_num
  have hl1 : (((1 : ℚ)) : ℝ) = 1 := by norm_num
  have hl0 : (((0 : ℚ)) : ℝ) = 0 := by norm_num
  have hlm : (((-1 : ℚ)) : ℝ) = -1 := by norm_num
  have hR02 : rotOf q 0 2 = 2 * (q.imI * q.imK + q.imJ * q.re) := by simp [rotOf]
  have hI : rotOf q 0 2 ∈ Set.Icc (-1 : ℝ) 1 := by
    have := (rotOf_rows h).1
    have hsq : rotOf q 0 2 ^ 2 ≤ 1 := by nlinarith [sq_nonneg (rotOf q 0 0), sq_nonneg (rotOf q 0 1)]
    exact abs_le.1 (abs_le_one_iff_mul_self_le_one.2 (by rw [← sq]; exact hsq))
  unfold quatToEuler
  rw [quat_to_unit_idem q h]
  simp only [quat, XR.fin_mul, XR.fin_add, XR.fin_sub, XR.lit_eq, hl2, hl1, hlm, hl5, hl, hl0, ← hR02, XR.fin_atan2]
  rw [if_pos (by
    rw [Bool.or_eq_true, XR.fin_abs, XR.fin_abs, XR.fin_lt, XR.fin_lt]
    have e : q.imI * q.imK + q.imJ * q.re = rotOf q 0 2 / 2 := by rw [hR02]; ring
    rw [e, abs_lt, abs_lt]
    obtain ⟨i1, i2⟩ := hI
    rcases lt_abs.1 hb with hg | hg
    · left; constructor <;> linarith
    · right; constructor <;> linarith)]
  rw [if_neg (by rw [XR.fin_gt]; exact not_lt.2 hI.2), if_neg (by rw [XR.fin_lt]; exact not_lt.2 hI.1), XR.fin_asin hI]
  rfl

/-- The matrix the round trip gives inside the band differs little from that of the quaternion. -/
theorem band_close {q : ℍ[ℝ]} (h : ‖q‖ = 1) (hb : 1 - 2e-6 < |rotOf q 0 2|) :
    ∑ i, ∑ j, (rotOf (eulerq (Complex.arg ⟨rotOf q 1 1, rotOf q 2 1⟩) (Real.arcsin (rotOf q 0 2)) 0) i j - rotOf q i j) ^ 2 ≤
      4 * 3e-3 ^ 2 := by
  have hI : -1 ≤ rotOf q 0 2 ∧ rotOf q 0 2 ≤ 1 := by
    have := (rotOf_rows h).1
    have hsq : rotOf q 0 2 ^ 2 ≤ 1 := by nlinarith [sq_nonneg (rotOf q 0 0), sq_nonneg (rotOf q 0 1)]
    exact abs_le.1 (abs_le_one_iff_mul_self_le_one.2 (by rw [← sq]; exact hsq))
  have hsy := Real.sin_arcsin hI.1 hI.2
  have hcy := Real.cos_arcsin_nonneg (rotOf q 0 2)
  have hc2 := Real.sin_sq_add_cos_sq (Real.arcsin (rotOf q 0 2))
  rw [hsy] at hc2
  have ho := rotOf_orth h
  obtain ⟨ho', hadj⟩ := so3_eqs ho (rotOf_det h)
  rw [Matrix.adjugate_fin_three] at hadj
  have r : ∀ i j, (rotOf q * (rotOf q)ᵀ) i j = (1 : Matrix (Fin 3) (Fin 3) ℝ) i j := fun i j => by rw [ho']
  have c : ∀ i j, ((rotOf q)ᵀ * rotOf q) i j = (1 : Matrix (Fin 3) (Fin 3) ℝ) i j := fun i j => by rw [ho]
  have k : ∀ i j, _ = (rotOf q)ᵀ i j := fun i j => congrFun (congrFun hadj i) j
  have r00 := r 0 0; have c22 := c 2 2; have c11 := c 1 1
  have k01 := k 0 1; have k02 := k 0 2
  clear r c k hadj ho ho'
  rw [rotOf_eulerq, hsy, Real.cos_zero, Real.sin_zero]
  generalize rotOf q = A at *
  generalize Real.cos (Real.arcsin (A 0 2)) = c at *
  simp [Matrix.mul_apply, Fin.sum_univ_three] at r00 c22 c11 k01 k02
  have hs2 : (1 - 2e-6) ^ 2 ≤ A 0 2 ^ 2 := by
    rw [← sq_abs (A 0 2)]; exact pow_le_pow_left₀ (by norm_num) hb.le 2
  have hcs : c ^ 2 ≤ 4e-6 := by
    have : (1 - 4e-6 : ℝ) ≤ (1 - 2e-6) ^ 2 := by norm_num
    linarith
  -- the lengths of the parts of the matrix
  have w1 : A 0 0 ^ 2 + A 0 1 ^ 2 = c ^ 2 := by linear_combination r00 - hc2
  have w2 : A 1 2 ^ 2 + A 2 2 ^ 2 = c ^ 2 := by linear_combination c22 - hc2
  have hr2 : A 1 1 ^ 2 + A 2 1 ^ 2 = 1 - A 0 1 ^ 2 := by linear_combination c11
  have h01 : A 0 1 ^ 2 ≤ 4e-6 := by linarith [sq_nonneg (A 0 0)]
  obtain ⟨ρ, hρ, hρ2⟩ : ∃ ρ : ℝ, 0 < ρ ∧ ρ ^ 2 = 1 - A 0 1 ^ 2 :=
    ⟨Real.sqrt (1 - A 0 1 ^ 2), Real.sqrt_pos.2 (by linarith), Real.sq_sqrt (by linarith)⟩
  obtain ⟨cx, sx⟩ := arg_cos_sin (a := A 1 1) (b := A 2 1) hρ (by rw [hr2, hρ2])
  have hcs1 := Real.sin_sq_add_cos_sq (Complex.arg ⟨A 1 1, A 2 1⟩)
  generalize Real.cos (Complex.arg ⟨A 1 1, A 2 1⟩) = C at *
  generalize Real.sin (Complex.arg ⟨A 1 1, A 2 1⟩) = S at *
  have hρ1 : ρ ≤ 1 := (abs_le_of_sq_le_sq' (by rw [hρ2, one_pow]; linarith [sq_nonneg (A 0 1)]) zero_le_one).2
  have hρ0 : 1 - ρ ≤ 4e-6 := by
    have : ρ ^ 2 ≤ ρ := by rw [sq]; exact mul_le_of_le_one_left hρ.le hρ1
    linarith
  have d0 : (c - A 0 0) ^ 2 + A 0 1 ^ 2 ≤ 4 * c ^ 2 := by
    have : -c ≤ A 0 0 := (abs_le_of_sq_le_sq' (by linarith [sq_nonneg (A 0 1)]) hcy).1
    have g := mul_le_mul_of_nonneg_left this hcy
    linarith [w1, (by ring : (c - A 0 0) ^ 2 + A 0 1 ^ 2 = c ^ 2 - 2 * (c * A 0 0) + (A 0 0 ^ 2 + A 0 1 ^ 2)), (by ring : c * -c = -c ^ 2)]
  have d2 : (S * c + A 1 2) ^ 2 + (C * c - A 2 2) ^ 2 ≤ 4 * c ^ 2 := by
    have e : (S * c + A 1 2) ^ 2 + (C * c - A 2 2) ^ 2 + ((S * c - A 1 2) ^ 2 + (C * c + A 2 2) ^ 2) = 4 * c ^ 2 := by
      linear_combination (2 * c ^ 2) * hcs1 + 2 * w2
    linarith [sq_nonneg (S * c - A 1 2), sq_nonneg (C * c + A 2 2)]
  have d1 : (C - A 1 1) ^ 2 + (S - A 2 1) ^ 2 ≤ 1e-10 := by
    rw [← cx, ← sx]
    have e : (C - ρ * C) ^ 2 + (S - ρ * S) ^ 2 = (1 - ρ) ^ 2 := by linear_combination ((1 - ρ) ^ 2) * hcs1
    rw [e]
    exact (pow_le_pow_left₀ (by linarith) hρ0 2).trans (by norm_num)
  have e10 : A 1 0 = A 0 2 * A 2 1 - A 0 1 * A 2 2 := by linarith
  have e20 : A 2 0 = A 0 1 * A 1 2 - A 0 2 * A 1 1 := by linarith
  have d3 : (S * A 0 2 - A 1 0) ^ 2 + (-(C * A 0 2) - A 2 0) ^ 2 ≤ 1e-9 := by
    rw [e10, e20, ← cx, ← sx]
    have f : (S * A 0 2 - (A 0 2 * (ρ * S) - A 0 1 * A 2 2)) ^ 2 + (-(C * A 0 2) - (A 0 1 * A 1 2 - A 0 2 * (ρ * C))) ^ 2 ≤
        2 * ((A 0 2 * (1 - ρ)) ^ 2 + A 0 1 ^ 2 * c ^ 2) := by
      have g : (S * A 0 2 - (A 0 2 * (ρ * S) - A 0 1 * A 2 2)) ^ 2 + (-(C * A 0 2) - (A 0 1 * A 1 2 - A 0 2 * (ρ * C))) ^ 2 +
          ((S * A 0 2 * (1 - ρ) - A 0 1 * A 2 2) ^ 2 + (C * A 0 2 * (1 - ρ) - A 0 1 * A 1 2) ^ 2) =
          2 * ((A 0 2 * (1 - ρ)) ^ 2 + A 0 1 ^ 2 * c ^ 2) := by
        linear_combination (2 * (A 0 2 * (1 - ρ)) ^ 2) * hcs1 + (2 * A 0 1 ^ 2) * w2
      linarith [sq_nonneg (S * A 0 2 * (1 - ρ) - A 0 1 * A 2 2), sq_nonneg (C * A 0 2 * (1 - ρ) - A 0 1 * A 1 2)]
    have g1 : (A 0 2 * (1 - ρ)) ^ 2 ≤ (4e-6) ^ 2 := by
      rw [mul_pow]
      have t1 : A 0 2 ^ 2 ≤ 1 := by linarith [sq_nonneg c]
      have t2 : (1 - ρ) ^ 2 ≤ (4e-6) ^ 2 := pow_le_pow_left₀ (by linarith) hρ0 2
      exact (mul_le_of_le_one_left (sq_nonneg _) t1).trans t2
    have g2 : A 0 1 ^ 2 * c ^ 2 ≤ 4e-6 * 4e-6 := mul_le_mul h01 hcs (sq_nonneg _) (by norm_num)
    norm_num at g1 g2 ⊢
    linarith
  simp only [Fin.sum_univ_three]
  simp
  norm_num at d1 d3 hcs ⊢
  linarith [neg_sq (A 0 1)]

/-- C86. In and near gimbal lock (`|sin pitch| > 1 - 2e-6`) the yaw is set to 0 and the round trip gives, up to sign,
a quaternion within `3e-3` of the direction. -/
theorem quat_euler_near_gimbal (q : ℍ[ℝ]) (hn : 1e-6 ≤ ‖q‖)
    (hb : 1 / 2 - 1e-6 < |(direction q).imI * (direction q).imK + (direction q).imJ * (direction q).re|) :
    ∃ (x y : ℝ) (p : ℍ[ℝ]), quatToEuler (quat q) = ⟨XR.fin x, XR.fin y, XR.fin 0⟩ ∧
      quatFromEuler ⟨XR.fin x, XR.fin y, XR.fin 0⟩ = quat p ∧ (‖p - direction q‖ ≤ 3e-3 ∨ ‖p - -direction q‖ ≤ 3e-3) := by
  have hu := norm_direction hn
  have hR02 : rotOf (direction q) 0 2 =
      2 * ((direction q).imI * (direction q).imK + (direction q).imJ * (direction q).re) := by simp [rotOf]
  have g : 1 - 2e-6 < |rotOf (direction q) 0 2| := by
    rw [hR02, abs_mul, abs_two]; linarith
  have hE : quatToEuler (quat q) = quatToEuler (quat (direction q)) := by
    unfold quatToEuler
    rw [quatToUnit_quat, quat_to_unit_idem _ hu]
  refine ⟨_, _, _, hE.trans (quatToEuler_band hu g), quat_from_euler_correct _ _ _, ?_⟩
  rw [sub_neg_eq_add]
  exact unit_close (norm_eulerq _ _ _) hu (by norm_num) (band_close hu g)

/-- C86. For every quaternion of magnitude at least `1e-6` the round trip gives its direction up to sign, within `3e-3`. -/
theorem quat_euler_roundtrip_close (q : ℍ[ℝ]) (hn : 1e-6 ≤ ‖q‖) :
    ∃ (x y z : ℝ) (p : ℍ[ℝ]), quatToEuler (quat q) = ⟨XR.fin x, XR.fin y, XR.fin z⟩ ∧
      quatFromEuler ⟨XR.fin x, XR.fin y, XR.fin z⟩ = quat p ∧ (‖p - direction q‖ ≤ 3e-3 ∨ ‖p - -direction q‖ ≤ 3e-3) := by
  by_cases hb : 1 / 2 - 1e-6 < |(direction q).imI * (direction q).imK + (direction q).imJ * (direction q).re|
  · obtain ⟨x, y, p, h⟩ := quat_euler_near_gimbal q hn hb
    exact ⟨x, y, 0, p, h⟩
  · obtain ⟨b1, b2⟩ := abs_le.1 (not_lt.1 hb)
    obtain ⟨x, y, z, h1, h2, -⟩ := quat_euler_roundtrip_partial q hn (by rw [abs_of_nonpos (by linarith)]; linarith)
      (by rw [abs_of_nonneg (by linarith)]; linarith)
    rw [quatToUnit_quat] at h2
    rcases h2 with h2 | h2
    · exact ⟨x, y, z, _, h1, h2, Or.inl (by rw [sub_self, norm_zero]; norm_num)⟩
    · exact ⟨x, y, z, _, h1, h2, Or.inr (by rw [sub_self, norm_zero]; norm_num)⟩

/-- C86. Principal angles with a pitch in or near gimbal lock are not recovered: the yaw comes back as 0. -/
theorem quat_euler_yaw_lost (x y z : ℝ) (hb : 1 - 2e-6 < |Real.sin y|) :
    (quatToEuler (quatFromEuler ⟨XR.fin x, XR.fin y, XR.fin z⟩)).z = XR.fin 0 := by
  have m02 : rotOf (eulerq x y z) 0 2 = Real.sin y := by rw [rotOf_eulerq]; simp
  have hf : quatFromEuler ⟨XR.fin x, XR.fin y, XR.fin z⟩ = quat (eulerq x y z) := quat_from_euler_correct x y z
  rw [hf, quatToEuler_band (norm_eulerq x y z) (by rw [m02]; exact hb)]

example : 1 - 2e-6 < |Real.sin (Real.pi / 2)| := by rw [Real.sin_pi_div_two, abs_one]; norm_num

/-- C86. Near gimbal lock the round trip is not exact: some unit quaternion comes back as a different rotation. -/
theorem quat_euler_roundtrip_inexact : ∃ q : ℍ[ℝ], ‖q‖ = 1 ∧ ∃ e : Euler XR, quatToEuler (quat q) = e ∧
    quatFromEuler e ≠ quat q ∧ quatFromEuler e ≠ quat (-q) := by
  have hs : Real.sin (Real.arccos 1e-3) = Real.sqrt (1 - 1e-3 ^ 2) := Real.sin_arccos _
  have hc : Real.cos (Real.arccos 1e-3) = 1e-3 := Real.cos_arccos (by norm_num) (by norm_num)
  have hsl : 1 - 2e-6 < Real.sqrt (1 - 1e-3 ^ 2) := by
    apply Real.lt_sqrt_of_sq_lt; norm_num
  have hu := norm_eulerq 0 (Real.arccos 1e-3) (Real.pi / 2)
  have m02 : rotOf (eulerq 0 (Real.arccos 1e-3) (Real.pi / 2)) 0 2 = Real.sqrt (1 - 1e-3 ^ 2) := by rw [rotOf_eulerq, hs]; simp
  have m00 : rotOf (eulerq 0 (Real.arccos 1e-3) (Real.pi / 2)) 0 0 = 0 := by rw [rotOf_eulerq]; simp
  have hE := quatToEuler_band hu (by rw [m02]; exact lt_of_lt_of_le hsl (le_abs_self _))
  have hm : rotOf (eulerq (Complex.arg ⟨rotOf (eulerq 0 (Real.arccos 1e-3) (Real.pi / 2)) 1 1,
      rotOf (eulerq 0 (Real.arccos 1e-3) (Real.pi / 2)) 2 1⟩)
      (Real.arcsin (rotOf (eulerq 0 (Real.arccos 1e-3) (Real.pi / 2)) 0 2)) 0) 0 0 = 1e-3 := by
    rw [rotOf_eulerq, m02]
    simp only [Matrix.of_apply, Matrix.cons_val_zero, Matrix.cons_val', Real.cos_zero, mul_one, Real.cos_arcsin]
    rw [Real.sq_sqrt (by norm_num), sub_sub_cancel, Real.sqrt_sq (by norm_num)]
  refine ⟨_, hu, _, hE, ?_, ?_⟩
  · rw [quat_from_euler_correct]
    intro h
    have h := congrArg (fun p => rotOf p 0 0) (quat_injective h)
    simp only [m00] at h
    have h2 := hm.symm.trans h
    norm_num at h2
  · rw [quat_from_euler_correct]
    intro h
    have h := congrArg (fun p => rotOf p 0 0) (quat_injective h)
    have hneg : ∀ u : ℍ[ℝ], rotOf (-u) 0 0 = rotOf u 0 0 := by intro u; simp [rotOf]
    simp only [hneg, m00] at h
    have h2 := hm.symm.trans h
    norm_num at h2

end Verif
