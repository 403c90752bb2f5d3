import Verif.Props.Fusion3

/-!
# C63, C65, C99: the AQUA filter
-/

namespace Verif

open Quaternion Matrix Out

/-- The rotation that takes the vertical to the unit vector `v`. -/
noncomputable def accQ (v : V3) : ℍ[ℝ] :=
  hq (Real.sqrt ((v 2 + 1) / 2)) (-v 1 / Real.sqrt (2 * (v 2 + 1))) (v 0 / Real.sqrt (2 * (v 2 + 1))) 0

/-- The length of the horizontal part of `v`. -/
noncomputable def horiz (v : V3) : ℝ := Real.sqrt (v 0 * v 0 + v 1 * v 1)

/-- The rotation around the vertical that takes the forward axis to the direction of the horizontal part of `v`. -/
noncomputable def magQ (v : V3) : ℍ[ℝ] :=
  hq (Real.sqrt ((horiz v * horiz v + v 0 * horiz v) / (2 * horiz v * horiz v))) 0 0
    (v 1 / Real.sqrt (2 * (horiz v * horiz v + v 0 * horiz v)))

theorem accQ_spec {v : V3} (h1 : v 0 ^ 2 + v 1 ^ 2 + v 2 ^ 2 = 1) (h : -1 < v 2) :
    ‖accQ v‖ = 1 ∧ 0 ≤ (accQ v).re ∧ accQ v * pureQ up = pureQ v * accQ v := by
  have hs : 0 < Real.sqrt (2 * (v 2 + 1)) := Real.sqrt_pos.2 (by linarith)
  have hq' : Real.sqrt ((v 2 + 1) / 2) = Real.sqrt (2 * (v 2 + 1)) / 2 := by
    rw [show (v 2 + 1) / 2 = 2 * (v 2 + 1) / 2 ^ 2 by ring, Real.sqrt_div (by linarith), Real.sqrt_sq (by norm_num)]
  have h2 := Real.mul_self_sqrt (show 0 ≤ 2 * (v 2 + 1) by linarith)
  unfold accQ pureQ up
  rw [hq']
  generalize Real.sqrt (2 * (v 2 + 1)) = s at *
  generalize v 0 = x at *
  generalize v 1 = y at *
  generalize v 2 = z at *
  have hne : s ≠ 0 := hs.ne'
  refine ⟨?_, ?_, ?_⟩
  · rw [norm_quat, Real.sqrt_eq_one]
    simp only [hq_re, hq_imI, hq_imJ, hq_imK]
    field_simp
    nlinarith
  · simp only [hq_re]; positivity
  · ext <;> simp only [Quaternion.re_mul, Quaternion.imI_mul, Quaternion.imJ_mul, Quaternion.imK_mul, hq_re, hq_imI, hq_imJ, hq_imK,
      Matrix.cons_val_zero, Matrix.cons_val_one, Matrix.cons_val] <;> field_simp <;> grind

theorem magQ_spec {v : V3} (h : v 1 ≠ 0 ∨ 0 < v 0) :
    0 < horiz v ∧ 0 < horiz v * horiz v + v 0 * horiz v ∧ ‖magQ v‖ = 1 ∧ 0 ≤ (magQ v).re ∧ magQ v * pureQ ![horiz v, 0, v 2] = pureQ v * magQ v ∧
      magQ v * pureQ up = pureQ up * magQ v := by
  have hp : 0 < v 0 * v 0 + v 1 * v 1 := by
    rcases h with h | h
    · nlinarith [sq_nonneg (v 0), sq_pos_of_ne_zero h]
    · nlinarith [sq_nonneg (v 1)]
  have hy : 0 < horiz v := Real.sqrt_pos.2 hp
  have hyy : horiz v * horiz v = v 0 * v 0 + v 1 * v 1 := Real.mul_self_sqrt hp.le
  have hx : 0 < horiz v + v 0 := by
    rcases h with h | h
    · have := sq_pos_of_ne_zero h
      nlinarith
    · linarith
  have hw' : 0 < horiz v * horiz v + v 0 * horiz v := by nlinarith
  refine ⟨hy, hw', ?_⟩
  have hs : 0 < Real.sqrt (2 * (horiz v * horiz v + v 0 * horiz v)) := Real.sqrt_pos.2 (by linarith)
  have hq' : Real.sqrt ((horiz v * horiz v + v 0 * horiz v) / (2 * horiz v * horiz v)) =
      Real.sqrt (2 * (horiz v * horiz v + v 0 * horiz v)) / (2 * horiz v) := by
    rw [show (horiz v * horiz v + v 0 * horiz v) / (2 * horiz v * horiz v) =
      2 * (horiz v * horiz v + v 0 * horiz v) / (2 * horiz v) ^ 2 by field_simp, Real.sqrt_div (by linarith), Real.sqrt_sq (by linarith)]
  have h2 := Real.mul_self_sqrt (show 0 ≤ 2 * (horiz v * horiz v + v 0 * horiz v) by linarith)
  unfold magQ pureQ up
  rw [hq']
  generalize Real.sqrt (2 * (horiz v * horiz v + v 0 * horiz v)) = s at *
  generalize horiz v = y at *
  generalize v 0 = a at *
  generalize v 1 = b at *
  generalize v 2 = z at *
  have hne : s ≠ 0 := hs.ne'
  have hne' : y ≠ 0 := hy.ne'
  have hne2 : y + a ≠ 0 := hx.ne'
  refine ⟨?_, ?_, ?_, ?_⟩
  · rw [norm_quat, Real.sqrt_eq_one]
    simp only [hq_re, hq_imI, hq_imJ, hq_imK]
    field_simp
    grind
  · simp only [hq_re]; positivity
  · ext <;> simp only [Quaternion.re_mul, Quaternion.imI_mul, Quaternion.imJ_mul, Quaternion.imK_mul, hq_re, hq_imI, hq_imJ, hq_imK,
      Matrix.cons_val_zero, Matrix.cons_val_one, Matrix.cons_val] <;> field_simp <;> grind
  · ext <;> simp only [Quaternion.re_mul, Quaternion.imI_mul, Quaternion.imJ_mul, Quaternion.imK_mul, hq_re, hq_imI, hq_imJ, hq_imK,
      Matrix.cons_val_zero, Matrix.cons_val_one, Matrix.cons_val] <;> ring

/-- The part `t` of the rotation `d`: linear interpolation with the identity when the real part exceeds `eps`, else spherical. -/
noncomputable def blend (eps t : ℝ) (d : ℍ[ℝ]) : ℍ[ℝ] :=
  if eps < d.re then direction ((1 - t) • 1 + t • d)
  else if t = 0 then 1
  else if t = 1 then d
  else if |d.re - 1| < 1e-6 then 1
  else (Real.sin (Real.arccos d.re * (1 - t)) / Real.sin (Real.arccos d.re)) • 1 + (Real.sin (Real.arccos d.re * t) / Real.sin (Real.arccos d.re)) • d

theorem qdot_one (d : ℍ[ℝ]) : qdot 1 d = d.re := by simp [qdot]

theorem aquaApply_quat (junk : ℕ → XR) (eps t : ℝ) (h0 : 0 ≤ t) (h1 : t ≤ 1) (d q : ℍ[ℝ]) (hd : ‖d‖ = 1) (hr : 0 ≤ d.re) :
    aquaApply junk (quat d) (XR.fin eps) (XR.fin t) (quat q) = quat (q * blend eps t d) ∧ ‖blend eps t d‖ = 1 := by
  have hone : (quatIdentity : Quat XR) = quat 1 := by simp [quatIdentity, quat]
  have n1 : ‖(1 : ℍ[ℝ])‖ = 1 := by simp
  unfold aquaApply blend
  simp only [hone]
  rw [show (quat d).r = XR.fin d.re from rfl]
  by_cases he : eps < d.re
  · rw [if_pos (by rwa [XR.fin_gt]), if_pos he]
    obtain ⟨c, hc, hc', -⟩ := quat_lerp_correct 1 d t (quatJunk junk) h0 h1
    rw [direction_of_norm_one n1, direction_of_norm_one hd] at hc'
    rw [hc, hc']
    refine ⟨quat_mult_correct _ _, norm_direction ?_⟩
    have hre : ((1 - t) • (1 : ℍ[ℝ]) + t • d).re = (1 - t) + t * d.re := by simp
    -- the squared length is at least 1/2
    have hsq : ‖(1 - t) • (1 : ℍ[ℝ]) + t • d‖ ^ 2 = (1 - t) ^ 2 + t ^ 2 + 2 * t * (1 - t) * d.re := by
      have ud := unit_eq hd
      rw [norm_sq_quat]
      simp
      nlinarith
    have h2 : (1 / 4 : ℝ) ≤ ‖(1 - t) • (1 : ℍ[ℝ]) + t • d‖ ^ 2 := by
      rw [hsq]
      have : 0 ≤ 2 * t * (1 - t) * d.re := by
        apply mul_nonneg _ hr
        nlinarith
      nlinarith [sq_nonneg (2 * t - 1)]
    have h3 := norm_nonneg ((1 - t) • (1 : ℍ[ℝ]) + t • d)
    by_contra hc
    have : ‖(1 - t) • (1 : ℍ[ℝ]) + t • d‖ < 1e-6 := not_le.1 hc
    nlinarith
  · rw [if_neg (by rwa [XR.fin_gt]), if_neg he]
    by_cases t0 : t = 0
    · subst t0
      rw [if_pos rfl, (quat_slerp_ends (quat 1) (quat d) _).1]
      simp only
      rw [quat_to_unit_idem 1 n1]
      exact ⟨quat_mult_correct _ _, n1⟩
    · rw [if_neg t0]
      by_cases t1 : t = 1
      · subst t1
        rw [if_pos rfl, (quat_slerp_ends (quat 1) (quat d) _).2]
        simp only
        rw [quat_to_unit_idem d hd]
        exact ⟨quat_mult_correct _ _, hd⟩
      · rw [if_neg t1]
        have h0' : 0 < t := lt_of_le_of_ne h0 (Ne.symm t0)
        have h1' : t < 1 := lt_of_le_of_ne h1 t1
        by_cases hp : |d.re - 1| < 1e-6
        · rw [if_pos hp, quat_slerp_equal 1 d t _ n1 hd h0' h1' (by rwa [qdot_one])]
          exact ⟨quat_mult_correct _ _, n1⟩
        · rw [if_neg hp]
          have hp' : 1e-6 ≤ |qdot 1 d - 1| := by rw [qdot_one]; exact not_lt.1 hp
          have hn' : 1e-6 ≤ |qdot 1 d + 1| := by rw [qdot_one, abs_of_nonneg (by linarith)]; linarith
          have e := quatSlerp_quat (quatJunk junk) n1 hd h0' h1' hp' hn'
          obtain ⟨c, hc, hn, -⟩ := quat_slerp_correct 1 d t (quatJunk junk) n1 hd h0' h1' hp' hn'
          rw [e] at hc
          rw [e]
          rw [qdot_one] at *
          refine ⟨quat_mult_correct _ _, ?_⟩
          rw [Prod.mk.injEq] at hc
          rw [quat_injective hc.2]
          exact hn

theorem blend_one (eps : ℝ) {d : ℍ[ℝ]} (hd : ‖d‖ = 1) : blend eps 1 d = d := by
  unfold blend
  by_cases h1 : eps < d.re
  · rw [if_pos h1, sub_self, zero_smul, zero_add, one_smul, direction_of_norm_one hd]
  · rw [if_neg h1, if_neg one_ne_zero, if_pos rfl]


/-! ### The code computes these rotations -/

theorem turned_unit {p : ℍ[ℝ]} (hp : ‖p‖ = 1) (v : V3) : pureQ (turned p v) = p * pureQ v * p⁻¹ := by
  have hu := unit_eq hp
  unfold turned
  rw [direction_of_norm_one hp]
  have hi : p⁻¹ = star p := by
    rw [Quaternion.instInv]
    change (Quaternion.normSq p)⁻¹ • star p = star p
    rw [Quaternion.normSq_eq_norm_mul_self, hp]; simp
  rw [hi]
  ext
  · simp only [pureQ, hq_re, Quaternion.re_mul, Quaternion.imI_mul, Quaternion.imJ_mul, Quaternion.imK_mul, Quaternion.re_star, Quaternion.imI_star,
      Quaternion.imJ_star, Quaternion.imK_star, hq_imI, hq_imJ, hq_imK]
    ring
  all_goals simp [pureQ]

theorem norm_pureQ (v : V3) : ‖pureQ v‖ ^ 2 = v 0 ^ 2 + v 1 ^ 2 + v 2 ^ 2 := by
  rw [norm_sq_quat]; simp [pureQ]

theorem turned_len {p : ℍ[ℝ]} (hp : ‖p‖ = 1) (v : V3) :
    turned p v 0 ^ 2 + turned p v 1 ^ 2 + turned p v 2 ^ 2 = v 0 ^ 2 + v 1 ^ 2 + v 2 ^ 2 := by
  rw [← norm_pureQ, ← norm_pureQ, turned_unit hp]
  simp [hp]

theorem aquaDeltaAcc_eq (r : ℝ) {v : V3} (h : -1 < v 2) :
    aquaDeltaAcc (⟨XR.fin r, XR.fin (v 0), XR.fin (v 1), XR.fin (v 2)⟩ : Quat XR) = quat (accQ v) := by
  have hs : 0 < Real.sqrt (2 * (v 2 + 1)) := Real.sqrt_pos.2 (by linarith)
  unfold aquaDeltaAcc
  simp only [XR.lit_eq, XR.fin_add, XR.fin_mul, XR.fin_neg, Rat.cast_one, Rat.cast_ofNat, Rat.cast_zero]
  rw [XR.fin_div two_ne_zero, XR.fin_sqrt (by linarith), XR.fin_sqrt (by linarith), XR.fin_div hs.ne', XR.fin_div hs.ne']
  rfl

theorem aquaDeltaMag_eq (r : ℝ) {v : V3} (h : v 1 ≠ 0 ∨ 0 < v 0) :
    aquaDeltaMag (⟨XR.fin r, XR.fin (v 0), XR.fin (v 1), XR.fin (v 2)⟩ : Quat XR) = quat (magQ v) := by
  obtain ⟨h1, h2, -⟩ := magQ_spec h
  have hs : 0 < Real.sqrt (2 * (horiz v * horiz v + v 0 * horiz v)) := Real.sqrt_pos.2 (by linarith)
  unfold aquaDeltaMag
  simp only [XR.lit_eq, XR.fin_add, XR.fin_mul, Rat.cast_ofNat, Rat.cast_zero]
  rw [XR.fin_sqrt (add_nonneg (mul_self_nonneg _) (mul_self_nonneg _))]
  rw [show Real.sqrt (v 0 * v 0 + v 1 * v 1) = horiz v from rfl]
  simp only [XR.fin_add, XR.fin_mul]
  rw [XR.fin_div (by positivity), XR.fin_sqrt (by positivity), XR.fin_sqrt (by positivity), XR.fin_div hs.ne']
  rfl

/-- The attitude predicted from the gyroscope alone (the filter measures its rate with the opposite sign). -/
noncomputable def aquaGyro (f : ℕ) (q : ℍ[ℝ]) (g : V3) : ℍ[ℝ] := eulerStep f (fun i => g i * -1) q

/-- The measurement `v` as the attitude `p` sees it in the earth frame. -/
noncomputable def seen (p : ℍ[ℝ]) (v : V3) : V3 := turned p⁻¹ (unitOf v)

/-- The attitude `p` corrected by the part `t` of the rotation that explains the acceleration `a`. -/
noncomputable def aquaAcc (eps t : ℝ) (a : V3) (p : ℍ[ℝ]) : ℍ[ℝ] := p * blend eps t (accQ (seen p a))

/-- The attitude `p` corrected by the part `t` of the rotation that explains the field `m`. -/
noncomputable def aquaMag (eps t : ℝ) (m : V3) (p : ℍ[ℝ]) : ℍ[ℝ] := p * blend eps t (magQ (seen p m))

theorem norm_inv_one {p : ℍ[ℝ]} (hp : ‖p‖ = 1) : ‖p⁻¹‖ = 1 := by rw [norm_inv, hp, inv_one]

theorem seen_len {p : ℍ[ℝ]} (hp : ‖p‖ = 1) (v : V3) : seen p v 0 ^ 2 + seen p v 1 ^ 2 + seen p v 2 ^ 2 = 1 := by
  unfold seen
  rw [turned_len (norm_inv_one hp)]
  have := unitOf_norm v
  simpa [Fin.sum_univ_three] using this

theorem seen_up {p : ℍ[ℝ]} (hp : ‖p‖ = 1) {v : V3} (h : seen p v ≠ -up) : -1 < seen p v 2 := by
  have h1 := seen_len hp v
  by_contra hc
  apply h
  have h2 : seen p v 2 = -1 := by nlinarith [sq_nonneg (seen p v 0), sq_nonneg (seen p v 1)]
  rw [h2] at h1
  have h3 : seen p v 0 = 0 := by nlinarith [sq_nonneg (seen p v 0), sq_nonneg (seen p v 1)]
  have h4 : seen p v 1 = 0 := by nlinarith [sq_nonneg (seen p v 0), sq_nonneg (seen p v 1)]
  ext i
  fin_cases i <;> simp [up, h2, h3, h4]

theorem aquaAcc_code (junk : ℕ → XR) (eps t : ℝ) (h0 : 0 ≤ t) (h1 : t ≤ 1) (a : V3) {p : ℍ[ℝ]} (hp : ‖p‖ = 1) (h : seen p a ≠ -up) :
    aquaApply junk (aquaDeltaAcc (quatRot (quatInv (quat p)) (quat (pureQ (unitOf a))) (quatJunk junk)).2) (XR.fin eps) (XR.fin t) (quat p) =
      quat (aquaAcc eps t a p) ∧ ‖aquaAcc eps t a p‖ = 1 := by
  have hp' : 1e-6 ≤ ‖p‖ := by rw [hp]; norm_num
  have hi : 1e-6 ≤ ‖p⁻¹‖ := by rw [norm_inv_one hp]; norm_num
  rw [quatInv_quat p hp']
  obtain ⟨r, hr⟩ := quatRot_pure p⁻¹ (unitOf a) (quatJunk junk) hi
  rw [hr, show turned p⁻¹ (unitOf a) = seen p a from rfl, aquaDeltaAcc_eq r (v := seen p a) (seen_up hp h)]
  obtain ⟨n1, n2, -⟩ := accQ_spec (seen_len hp a) (seen_up hp h)
  obtain ⟨e1, e2⟩ := aquaApply_quat junk eps t h0 h1 (accQ (seen p a)) p n1 n2
  refine ⟨e1, ?_⟩
  unfold aquaAcc
  rw [norm_mul, hp, e2, one_mul]

theorem aquaMag_code (junk : ℕ → XR) (eps t : ℝ) (h0 : 0 ≤ t) (h1 : t ≤ 1) (m : V3) {p : ℍ[ℝ]} (hp : ‖p‖ = 1) (h : seen p m 1 ≠ 0 ∨ 0 < seen p m 0) :
    aquaApply junk (aquaDeltaMag (quatRot (quatInv (quat p)) (quat (pureQ (unitOf m))) (quatJunk junk)).2) (XR.fin eps) (XR.fin t) (quat p) =
      quat (aquaMag eps t m p) ∧ ‖aquaMag eps t m p‖ = 1 := by
  have hp' : 1e-6 ≤ ‖p‖ := by rw [hp]; norm_num
  have hi : 1e-6 ≤ ‖p⁻¹‖ := by rw [norm_inv_one hp]; norm_num
  rw [quatInv_quat p hp']
  obtain ⟨r, hr⟩ := quatRot_pure p⁻¹ (unitOf m) (quatJunk junk) hi
  rw [hr, show turned p⁻¹ (unitOf m) = seen p m from rfl, aquaDeltaMag_eq r (v := seen p m) h]
  obtain ⟨-, -, n1, n2, -⟩ := magQ_spec h
  obtain ⟨e1, e2⟩ := aquaApply_quat junk eps t h0 h1 (magQ (seen p m)) p n1 n2
  refine ⟨e1, ?_⟩
  unfold aquaMag
  rw [norm_mul, hp, e2, one_mul]

/-! ### The feed -/

/-- The configuration of the AQUA filter over the reals. -/
structure AquaR where
  alpha : ℝ
  beta : ℝ
  ea : ℝ
  em : ℝ

/-- As the program holds it. -/
def AquaR.cfg (c : AquaR) : AquaCfg XR := ⟨XR.fin c.alpha, XR.fin c.beta, XR.fin c.ea, XR.fin c.em⟩

/-- Gains the filter accepts. -/
def AquaR.Valid (c : AquaR) : Prop := 0 ≤ c.alpha ∧ c.alpha ≤ 1 ∧ 0 ≤ c.beta ∧ c.beta ≤ 1

/-- The gain of the accelerometer adapted to the first reading: reduced when its length is more than a tenth off gravity,
zero from a fifth on. -/
noncomputable def firstAlpha (alpha : ℝ) (a : V3) : ℝ :=
  let e := |len a - 9.81| / 9.81
  if 0.2 ≤ e then 0 else if 0.1 < e then alpha * ((0.2 - e) / 0.1) else alpha

theorem firstAlpha_mem {alpha : ℝ} (h0 : 0 ≤ alpha) (a : V3) : 0 ≤ firstAlpha alpha a ∧ firstAlpha alpha a ≤ alpha := by
  unfold firstAlpha
  simp only
  generalize |len a - 9.81| / 9.81 = e
  split_ifs with h h'
  · exact ⟨le_rfl, h0⟩
  · push Not at h
    have : 0 ≤ (0.2 - e) / 0.1 := by apply div_nonneg <;> linarith
    have h2 : (0.2 - e) / 0.1 ≤ 1 := by rw [div_le_one (by norm_num)]; linarith
    exact ⟨mul_nonneg h0 this, mul_le_of_le_one_right h0 h2⟩
  · exact ⟨h0, le_rfl⟩

theorem fusAquaAlphaInit_vec (alpha : ℝ) (a : V3) : fusAquaAlphaInit (sensor (some a)) (XR.fin alpha) = ok (XR.fin (firstAlpha alpha a), true) := by
  have l1 : (((9.81 : ℚ)) : ℝ) = 9.81 := by norm_num
  have l2 : (((0.2 : ℚ)) : ℝ) = 0.2 := by norm_num
  have l3 : (((0.1 : ℚ)) : ℝ) = 0.1 := by norm_num
  unfold fusAquaAlphaInit sensor
  simp only [Option.map_some]
  rw [if_neg (by simp), vecNorm_len, ok_bind]
  simp only [XR.lit_eq, l1, l2, l3, XR.fin_sub, XR.fin_abs]
  rw [XR.fin_div (by norm_num), XR.fin_sub, XR.fin_div (by norm_num)]
  unfold firstAlpha
  simp only [Bool.and_eq_true, XR.fin_ge, XR.fin_gt, XR.fin_lt, XR.fin_mul, pure_eq]
  generalize |len a - 9.81| / 9.81 = e
  by_cases h1 : 0.2 ≤ e
  · rw [if_pos h1, if_pos h1]; simp
  · rw [if_neg h1, if_neg h1]
    by_cases h2 : 0.1 < e
    · rw [if_pos h2, if_pos ⟨h2, not_le.1 h1⟩]
    · rw [if_neg h2, if_neg (fun h => h2 h.1)]

/-- The gain used by a feed: adapted to the reading when the filter has not been fed before. -/
noncomputable def AquaR.adapt (c : AquaR) (init : Bool) (a : V3) : AquaR := if init then c else { c with alpha := firstAlpha c.alpha a }

theorem AquaR.adapt_valid {c : AquaR} (h : c.Valid) (init : Bool) (a : V3) : (c.adapt init a).Valid := by
  unfold adapt
  cases init
  · have := firstAlpha_mem h.1 a
    exact ⟨this.1, this.2.trans h.2.1, h.2.2⟩
  · exact h

theorem aqua_feed_eq (junk : ℕ → XR) (f : ℕ) {c : AquaR} (hc : c.Valid) (init : Bool) (a : V3) (m : Option V3) (g : V3) (q : Quat XR) :
    fusAquaFeed junk f init c.cfg (Reading.sens ⟨some a, m, g⟩) q = (do
      let (rc, s, q) ← fusAqua junk f (c.adapt init a).cfg (Reading.sens ⟨some a, m, g⟩) q
      return (rc, s, (c.adapt init a).cfg, q, true)) := by
  unfold fusAquaFeed
  obtain ⟨h0, h1, h2, h3⟩ := hc
  rw [if_neg (by simp [AquaR.cfg, h0, h1, h2, h3])]
  cases init
  · simp only [Bool.false_eq_true, if_false]
    rw [show (Reading.sens ⟨some a, m, g⟩).a = sensor (some a) from rfl, show c.cfg.alpha = XR.fin c.alpha from rfl, fusAquaAlphaInit_vec, ok_bind]
    rfl
  · rfl

theorem aqua_start (junk : ℕ → XR) {f : ℕ} (hf : 0 < f) (c : AquaCfg XR) (r : Reading) {q : ℍ[ℝ]} (hq : 1e-6 ≤ ‖q‖) :
    fusAqua junk f c r.sens (quat q) = (do
      let g := vec (fun i => r.g i * -1) []
      let q := quat (aquaGyro f q r.g)
      let valid ← sensValid (sensor r.a)
      if valid then do
        let a ← unitP (sensor r.a)
        let qa ← quatOfVec a
        let qg := (quatRot (quatInv q) qa (quatJunk junk)).2
        let q := aquaApply junk (aquaDeltaAcc qg) c.ea c.alpha q
        let vm ← sensValid (sensor r.m)
        if vm then do
          let m ← unitP (sensor r.m)
          let qm ← quatOfVec m
          let ql := (quatRot (quatInv q) qm (quatJunk junk)).2
          let q := aquaApply junk (aquaDeltaMag ql) c.em c.beta q
          return (0, ⟨some a, some m, g⟩, quatToUnit q)
        else return (0, ⟨some a, sensor r.m, g⟩, quatToUnit q)
      else return (0, ⟨sensor r.a, sensor r.m, g⟩, quatToUnit q)) := by
  unfold fusAqua
  rw [if_neg (by simp [Reading.sens, badSize_sensor]), if_neg (quatIsZero_of_le hq)]
  simp only
  rw [show r.sens.g = vec r.g [] from rfl, show (lit (-1) : XR) = XR.fin (-1) by simp, vecScalarMult_vec, ok_bind]
  simp only
  rw [dt_eq hf, quatToUnit_quat, quatFromAngVel_vec _ _ _ _ _ (by positivity), ok_bind]
  simp only
  rw [direction_direction, show direction ((1 + (1 / (f : ℝ) / 2) • Verif.hq 0 (r.g 0 * -1) (r.g 1 * -1) (r.g 2 * -1)) * direction q) = aquaGyro f q r.g by
    unfold aquaGyro eulerStep pureQ
    rw [show (1 / (f : ℝ)) / 2 = 1 / (2 * f) by rw [div_div, mul_comm]]]
  rfl

/-- C63, C99. An AQUA feed with a valid accelerometer reading and no valid magnetometer reading predicts the attitude from the gyroscope
and corrects it by the part `alpha` of the rotation that takes the vertical to the measurement seen from the predicted attitude.
The result is a unit quaternion. The only exception is a measurement seen exactly upside down. -/
theorem aqua_feed_acc (junk : ℕ → XR) {f : ℕ} (hf : 0 < f) {c : AquaR} (hc : c.Valid) (init : Bool) (q : ℍ[ℝ]) (hq : 1e-6 ≤ ‖q‖) (a g : V3)
    (m : Option V3) (ha : 1e-6 < len a) (hm : ∀ x, m = some x → len x ≤ 1e-6) (hs : seen (aquaGyro f q g) a ≠ -up) :
    ∃ q', fusAquaFeed junk f init c.cfg (Reading.sens ⟨some a, m, g⟩) (quat q) =
        ok (0, Reading.sens ⟨some (unitOf a), m, fun i => g i * -1⟩, (c.adapt init a).cfg, quat q', true) ∧
      q' = aquaAcc c.ea (c.adapt init a).alpha a (aquaGyro f q g) ∧ ‖q'‖ = 1 := by
  rw [aqua_feed_eq junk f hc, aqua_start junk hf _ _ hq]
  obtain ⟨v0, v1, v2, v3⟩ := AquaR.adapt_valid hc init a
  have hp : ‖aquaGyro f q g‖ = 1 := norm_eulerStep f _ hq
  obtain ⟨e, n⟩ := aquaAcc_code junk (c.adapt init a).ea _ v0 v1 a hp hs
  have hvm : sensValid (sensor m) = ok false := by
    cases m with
    | none => rfl
    | some x => rw [sensValid_some]; simpa using hm x rfl
  have hea : (c.adapt init a).ea = c.ea := by cases init <;> rfl
  rw [hea] at e n
  refine ⟨_, ?_, rfl, n⟩
  simp only
  rw [sensValid_some, ok_bind, if_pos (by simpa using ha), unitP_some, ok_bind, quatOfVec_vec, ok_bind]
  rw [show (c.adapt init a).cfg.ea = XR.fin c.ea by rw [← hea]; rfl, show (c.adapt init a).cfg.alpha = XR.fin (c.adapt init a).alpha from rfl, e, hvm, ok_bind]
  simp only [Bool.false_eq_true, if_false, pure_eq, ok_bind]
  rw [quatToUnit_quat, direction_of_norm_one n]
  rfl

/-- C63, C99. With a valid magnetometer reading as well, the attitude is then corrected by the part `beta` of the rotation around the
vertical that takes north to the horizontal field. The only further exception is a field seen without horizontal part or exactly south. -/
theorem aqua_feed_mag (junk : ℕ → XR) {f : ℕ} (hf : 0 < f) {c : AquaR} (hc : c.Valid) (init : Bool) (q : ℍ[ℝ]) (hq : 1e-6 ≤ ‖q‖) (a m g : V3)
    (ha : 1e-6 < len a) (hm : 1e-6 < len m) (hs : seen (aquaGyro f q g) a ≠ -up)
    (hl : let l := seen (aquaAcc c.ea (c.adapt init a).alpha a (aquaGyro f q g)) m; l 1 ≠ 0 ∨ 0 < l 0) :
    ∃ q', fusAquaFeed junk f init c.cfg (Reading.sens ⟨some a, some m, g⟩) (quat q) =
        ok (0, Reading.sens ⟨some (unitOf a), some (unitOf m), fun i => g i * -1⟩, (c.adapt init a).cfg, quat q', true) ∧
      q' = aquaMag c.em c.beta m (aquaAcc c.ea (c.adapt init a).alpha a (aquaGyro f q g)) ∧ ‖q'‖ = 1 := by
  rw [aqua_feed_eq junk f hc, aqua_start junk hf _ _ hq]
  obtain ⟨v0, v1, v2, v3⟩ := AquaR.adapt_valid hc init a
  have hp : ‖aquaGyro f q g‖ = 1 := norm_eulerStep f _ hq
  obtain ⟨e, n⟩ := aquaAcc_code junk (c.adapt init a).ea _ v0 v1 a hp hs
  have hea : (c.adapt init a).ea = c.ea := by cases init <;> rfl
  have hem : (c.adapt init a).em = c.em := by cases init <;> rfl
  have hbe : (c.adapt init a).beta = c.beta := by cases init <;> rfl
  rw [hea] at e n
  obtain ⟨e', n'⟩ := aquaMag_code junk (c.adapt init a).em _ v2 v3 m n hl
  rw [hem, hbe] at e' n'
  refine ⟨_, ?_, rfl, n'⟩
  simp only
  rw [sensValid_some, ok_bind, if_pos (by simpa using ha), unitP_some, ok_bind, quatOfVec_vec, ok_bind]
  rw [show (c.adapt init a).cfg.ea = XR.fin c.ea by rw [← hea]; rfl, show (c.adapt init a).cfg.alpha = XR.fin (c.adapt init a).alpha from rfl, e,
    sensValid_some, ok_bind, if_pos (by simpa using hm), unitP_some, ok_bind, quatOfVec_vec, ok_bind]
  rw [show (c.adapt init a).cfg.em = XR.fin c.em by rw [← hem]; rfl, show (c.adapt init a).cfg.beta = XR.fin c.beta by rw [← hbe]; rfl, e']
  simp only [pure_eq, ok_bind]
  rw [quatToUnit_quat, direction_of_norm_one n']
  rfl

/-- C63. Without a valid accelerometer reading a fed AQUA filter only advances the attitude with the gyroscope's rate. -/
theorem aqua_feed_gyro (junk : ℕ → XR) {f : ℕ} (hf : 0 < f) {c : AquaR} (hc : c.Valid) (q : ℍ[ℝ]) (hq : 1e-6 ≤ ‖q‖) (r : Reading)
    (ha : ∀ a, r.a = some a → len a ≤ 1e-6) :
    fusAquaFeed junk f true c.cfg r.sens (quat q) =
        ok (0, Reading.sens ⟨r.a, r.m, fun i => r.g i * -1⟩, c.cfg, quat (aquaGyro f q r.g), true) ∧ ‖aquaGyro f q r.g‖ = 1 := by
  have hp : ‖aquaGyro f q r.g‖ = 1 := norm_eulerStep f _ hq
  refine ⟨?_, hp⟩
  have hva : sensValid (sensor r.a) = ok false := by
    cases h : r.a with
    | none => rfl
    | some x => rw [sensValid_some]; simpa using ha x h
  unfold fusAquaFeed
  obtain ⟨h0, h1, h2, h3⟩ := hc
  rw [if_neg (by simp [AquaR.cfg, h0, h1, h2, h3]), if_pos rfl, ok_bind]
  simp only
  rw [aqua_start junk hf _ _ hq]
  simp only
  rw [hva, ok_bind]
  simp only [Bool.false_eq_true, if_false, pure_eq, ok_bind]
  rw [quatToUnit_quat, direction_of_norm_one hp]
  rfl


/-! ### The corrections explain the measurements -/

theorem pureQ_inj {u v : V3} (h : pureQ u = pureQ v) : u = v := by
  have h1 := congrArg (·.imI) h
  have h2 := congrArg (·.imJ) h
  have h3 := congrArg (·.imK) h
  simp only [pureQ, hq_imI, hq_imJ, hq_imK] at h1 h2 h3
  ext i
  fin_cases i
  · exact h1
  · exact h2
  · exact h3

theorem ne_zero_of_norm {p : ℍ[ℝ]} (hp : ‖p‖ = 1) : p ≠ 0 := by
  intro h; rw [h, norm_zero] at hp; norm_num at hp

theorem turned_mul {p b : ℍ[ℝ]} (hp : ‖p‖ = 1) (hb : ‖b‖ = 1) (v : V3) : turned (p * b) v = turned p (turned b v) := by
  apply pureQ_inj
  rw [turned_unit (by rw [norm_mul, hp, hb, one_mul]), turned_unit hp, turned_unit hb, _root_.mul_inv_rev]
  simp only [mul_assoc]

theorem turned_inv {p : ℍ[ℝ]} (hp : ‖p‖ = 1) (v : V3) : turned p (turned p⁻¹ v) = v := by
  apply pureQ_inj
  rw [turned_unit hp, turned_unit (norm_inv_one hp), inv_inv]
  have := ne_zero_of_norm hp
  rw [mul_assoc, mul_assoc, mul_assoc, mul_inv_cancel₀ this, mul_one, ← mul_assoc, mul_inv_cancel₀ this, one_mul]

theorem turned_inv' {p : ℍ[ℝ]} (hp : ‖p‖ = 1) (v : V3) : turned p⁻¹ (turned p v) = v := by
  have := turned_inv (norm_inv_one hp) v
  rwa [inv_inv] at this

theorem turned_of_comm {d : ℍ[ℝ]} (hd : ‖d‖ = 1) {u v : V3} (h : d * pureQ u = pureQ v * d) : turned d u = v := by
  apply pureQ_inj
  rw [turned_unit hd, h, mul_assoc, mul_inv_cancel₀ (ne_zero_of_norm hd), mul_one]

theorem star_of_norm {p : ℍ[ℝ]} (hp : ‖p‖ = 1) : p⁻¹ = star p := by
  rw [Quaternion.instInv]
  change (Quaternion.normSq p)⁻¹ • star p = star p
  rw [Quaternion.normSq_eq_norm_mul_self, hp]; simp

theorem turned_dot {p : ℍ[ℝ]} (hp : ‖p‖ = 1) (u v : V3) : turned p u ⬝ᵥ turned p v = u ⬝ᵥ v := by
  have h1 := turned_len hp (u + v)
  have h2 := turned_len hp u
  have h3 := turned_len hp v
  have h4 : turned p (u + v) = turned p u + turned p v := by
    have e : pureQ (u + v) = pureQ u + pureQ v := by ext <;> simp [pureQ]
    have e' : ∀ u v, pureQ (u + v) = pureQ u + pureQ v := by intro u v; ext <;> simp [pureQ]
    apply pureQ_inj
    rw [turned_unit hp, e, e', turned_unit hp, turned_unit hp]
    noncomm_ring
  rw [h4] at h1
  simp only [Pi.add_apply] at h1
  simp only [dotProduct, Fin.sum_univ_three]
  nlinarith

/-- C99. With full gain a fed AQUA filter returns an attitude that turns the vertical exactly into the measured direction. -/
theorem aqua_full_gain_acc (junk : ℕ → XR) {f : ℕ} (hf : 0 < f) {c : AquaR} (hc : c.Valid) (h1 : c.alpha = 1) (q : ℍ[ℝ]) (hq : 1e-6 ≤ ‖q‖) (a g : V3)
    (m : Option V3) (ha : 1e-6 < len a) (hm : ∀ x, m = some x → len x ≤ 1e-6) (hs : seen (aquaGyro f q g) a ≠ -up) :
    ∃ s q', fusAquaFeed junk f true c.cfg (Reading.sens ⟨some a, m, g⟩) (quat q) = ok (0, s, c.cfg, quat q', true) ∧
      ‖q'‖ = 1 ∧ turned q' up = unitOf a := by
  obtain ⟨q', e, e', n⟩ := aqua_feed_acc junk hf hc true q hq a g m ha hm hs
  refine ⟨_, q', e, n, ?_⟩
  have hp : ‖aquaGyro f q g‖ = 1 := norm_eulerStep f _ hq
  obtain ⟨n1, -, n3⟩ := accQ_spec (seen_len hp a) (seen_up hp hs)
  rw [e']
  unfold aquaAcc
  rw [show (c.adapt true a).alpha = 1 from h1, blend_one _ n1, turned_mul hp n1, turned_of_comm n1 n3]
  exact turned_inv hp _

/-- C99. With full gains and both sensors the attitude turns the vertical exactly into the measured direction and sees the measured field
without an east component and pointing north. -/
theorem aqua_full_gain_mag (junk : ℕ → XR) {f : ℕ} (hf : 0 < f) {c : AquaR} (hc : c.Valid) (h1 : c.alpha = 1) (h2 : c.beta = 1) (q : ℍ[ℝ])
    (hq : 1e-6 ≤ ‖q‖) (a m g : V3) (ha : 1e-6 < len a) (hm : 1e-6 < len m) (hs : seen (aquaGyro f q g) a ≠ -up)
    (hl : let l := seen (aquaAcc c.ea 1 a (aquaGyro f q g)) m; l 1 ≠ 0 ∨ 0 < l 0) :
    ∃ s q', fusAquaFeed junk f true c.cfg (Reading.sens ⟨some a, some m, g⟩) (quat q) = ok (0, s, c.cfg, quat q', true) ∧
      ‖q'‖ = 1 ∧ turned q' up = unitOf a ∧ turned q'⁻¹ (unitOf m) 1 = 0 ∧ 0 < turned q'⁻¹ (unitOf m) 0 := by
  have ha1 : (c.adapt true a).alpha = 1 := h1
  obtain ⟨q', e, e', n⟩ := aqua_feed_mag junk hf hc true q hq a m g ha hm hs (by rw [ha1]; exact hl)
  have hp : ‖aquaGyro f q g‖ = 1 := norm_eulerStep f _ hq
  obtain ⟨n1, -, n3⟩ := accQ_spec (seen_len hp a) (seen_up hp hs)
  obtain ⟨y0, -, m1, -, m3, m4⟩ := magQ_spec hl
  have hr : ‖aquaAcc c.ea 1 a (aquaGyro f q g)‖ = 1 := by
    unfold aquaAcc
    rw [blend_one _ n1, norm_mul, hp, n1, one_mul]
  have hur : turned (aquaAcc c.ea 1 a (aquaGyro f q g)) up = unitOf a := by
    unfold aquaAcc
    rw [blend_one _ n1, turned_mul hp n1, turned_of_comm n1 n3]
    exact turned_inv hp _
  rw [ha1, h2] at e'
  unfold aquaMag at e'
  rw [blend_one _ m1] at e'
  have hu : turned q'⁻¹ (unitOf m) = ![horiz (seen (aquaAcc c.ea 1 a (aquaGyro f q g)) m), 0, seen (aquaAcc c.ea 1 a (aquaGyro f q g)) m 2] := by
    have := turned_of_comm m1 m3
    have h5 : unitOf m = turned q' ![horiz (seen (aquaAcc c.ea 1 a (aquaGyro f q g)) m), 0, seen (aquaAcc c.ea 1 a (aquaGyro f q g)) m 2] := by
      rw [e', turned_mul hr m1, this]
      exact (turned_inv hr _).symm
    conv_lhs => rw [h5]
    exact turned_inv' n _
  refine ⟨_, q', e, n, ?_, ?_, ?_⟩
  · rw [e', turned_mul hr m1, turned_of_comm m1 m4, hur]
  · rw [hu]; simp
  · rw [hu]; simpa using y0

theorem blend_combo (eps : ℝ) {t : ℝ} (h0 : 0 ≤ t) (h1 : t ≤ 1) {d : ℍ[ℝ]} (hd : ‖d‖ = 1) (hr : 0 ≤ d.re) :
    ∃ x y : ℝ, 0 ≤ x ∧ 0 ≤ y ∧ blend eps t d = x • 1 + y • d := by
  unfold blend
  have hd1 : d.re ≤ 1 := by have := unit_eq hd; nlinarith [sq_nonneg d.imI, sq_nonneg d.imJ, sq_nonneg d.imK]
  split_ifs
  · unfold direction
    split_ifs
    · exact ⟨0, 0, le_rfl, le_rfl, by simp⟩
    · refine ⟨‖(1 - t) • 1 + t • d‖⁻¹ * (1 - t), ‖(1 - t) • 1 + t • d‖⁻¹ * t, mul_nonneg (by positivity) (by linarith), by positivity, ?_⟩
      rw [smul_add, smul_smul, smul_smul]
  · exact ⟨1, 0, by simp⟩
  · exact ⟨0, 1, by simp⟩
  · exact ⟨1, 0, by simp⟩
  · have a0 := Real.arccos_nonneg d.re
    have a1 : Real.arccos d.re ≤ Real.pi / 2 := Real.arccos_le_pi_div_two.2 hr
    have hpi := Real.pi_pos
    refine ⟨_, _, div_nonneg ?_ ?_, div_nonneg ?_ ?_, rfl⟩
    · exact Real.sin_nonneg_of_nonneg_of_le_pi (mul_nonneg a0 (by linarith)) (by nlinarith)
    · exact Real.sin_nonneg_of_nonneg_of_le_pi a0 (by linarith)
    · exact Real.sin_nonneg_of_nonneg_of_le_pi (mul_nonneg a0 h0) (by nlinarith)
    · exact Real.sin_nonneg_of_nonneg_of_le_pi a0 (by linarith)

theorem toward_aux {v : V3} (h1 : v 0 ^ 2 + v 1 ^ 2 + v 2 ^ 2 = 1) (h : -1 < v 2) {x y : ℝ} (hx : 0 ≤ x) (hy : 0 ≤ y)
    {b : ℍ[ℝ]} (hb : b = x • 1 + y • accQ v) (nb : ‖b‖ = 1) : up ⬝ᵥ v ≤ turned b up ⬝ᵥ v := by
  have hs : 0 < Real.sqrt (2 * (v 2 + 1)) := Real.sqrt_pos.2 (by linarith)
  have hq' : Real.sqrt ((v 2 + 1) / 2) = Real.sqrt (2 * (v 2 + 1)) / 2 := by
    rw [show (v 2 + 1) / 2 = 2 * (v 2 + 1) / 2 ^ 2 by ring, Real.sqrt_div (by linarith), Real.sqrt_sq (by norm_num)]
  have h2 := Real.mul_self_sqrt (show 0 ≤ 2 * (v 2 + 1) by linarith)
  have ub := unit_eq nb
  unfold turned
  rw [direction_of_norm_one nb, star_of_norm nb]
  have b0 : b.re = x + y * (Real.sqrt (2 * (v 2 + 1)) / 2) := by rw [hb, ← hq']; simp [accQ]
  have b1 : b.imI = y * (-v 1 / Real.sqrt (2 * (v 2 + 1))) := by rw [hb]; simp [accQ]
  have b2 : b.imJ = y * (v 0 / Real.sqrt (2 * (v 2 + 1))) := by rw [hb]; simp [accQ]
  have b3 : b.imK = 0 := by rw [hb]; simp [accQ]
  simp only [dotProduct, Fin.sum_univ_three, pureQ, up, Matrix.cons_val_zero, Matrix.cons_val_one, Matrix.cons_val,
    Quaternion.re_mul, Quaternion.imI_mul, Quaternion.imJ_mul, Quaternion.imK_mul, hq_re, hq_imI, hq_imJ, hq_imK,
    Quaternion.re_star, Quaternion.imI_star, Quaternion.imJ_star, Quaternion.imK_star]
  rw [b0, b1, b2, b3] at ub ⊢
  generalize Real.sqrt (2 * (v 2 + 1)) = s at *
  generalize v 0 = v0 at *
  generalize v 1 = v1 at *
  generalize v 2 = v2 at *
  have hv2 : v2 = s * s / 2 - 1 := by linarith
  have hne : s ≠ 0 := hs.ne'
  have hh : v0 ^ 2 + v1 ^ 2 = s * s * (1 - s * s / 4) := by rw [hv2] at h1; linarith
  have hD : s * s / 4 ≤ 1 := by
    by_contra hc
    nlinarith [sq_nonneg v0, sq_nonneg v1, mul_pos hs hs]
  have e1 : x ^ 2 + y ^ 2 + x * y * s = 1 := by
    field_simp at ub
    have : s ^ 2 * (x ^ 2 + y ^ 2 + x * y * s - 1) = 0 := by grind
    have := (mul_eq_zero.1 this).resolve_left (by positivity)
    linarith
  have e2 : x ^ 2 ≤ 1 := by nlinarith [mul_nonneg (mul_nonneg hx hy) hs.le, sq_nonneg y]
  have key : (x * (s / 2) + y) ^ 2 - (s / 2) ^ 2 = (1 - x ^ 2) * (1 - s * s / 4) := by grind
  have key2 : 0 ≤ (1 - x ^ 2) * (1 - s * s / 4) := mul_nonneg (by linarith) (by linarith)
  have fin : v2 ≤ 2 * (x * (s / 2) + y) ^ 2 - 1 := by rw [hv2]; nlinarith
  refine le_trans (le_of_eq (by ring)) (le_trans fin (le_of_eq ?_))
  rw [hv2]
  field_simp
  grind

/-- C99, C94. Whatever the gain and the threshold, the accelerometer correction of AQUA never moves the vertical the attitude predicts away
from the measured one: the cosine of the angle between them does not fall. -/
theorem aqua_toward (junk : ℕ → XR) {f : ℕ} (hf : 0 < f) {c : AquaR} (hc : c.Valid) (init : Bool) (q : ℍ[ℝ]) (hq : 1e-6 ≤ ‖q‖) (a g : V3)
    (m : Option V3) (ha : 1e-6 < len a) (hm : ∀ x, m = some x → len x ≤ 1e-6) (hs : seen (aquaGyro f q g) a ≠ -up) :
    ∃ s c' q', fusAquaFeed junk f init c.cfg (Reading.sens ⟨some a, m, g⟩) (quat q) = ok (0, s, c', quat q', true) ∧
      turned (aquaGyro f q g) up ⬝ᵥ unitOf a ≤ turned q' up ⬝ᵥ unitOf a := by
  obtain ⟨q', e, e', n⟩ := aqua_feed_acc junk hf hc init q hq a g m ha hm hs
  refine ⟨_, _, q', e, ?_⟩
  obtain ⟨v0, v1, v2, v3⟩ := AquaR.adapt_valid hc init a
  have hp : ‖aquaGyro f q g‖ = 1 := norm_eulerStep f _ hq
  obtain ⟨n1, n2, n3⟩ := accQ_spec (seen_len hp a) (seen_up hp hs)
  obtain ⟨x, y, hx, hy, hb⟩ := blend_combo c.ea v0 v1 n1 n2
  have nb := (aquaApply_quat junk c.ea _ v0 v1 (accQ (seen (aquaGyro f q g) a)) (aquaGyro f q g) n1 n2).2
  have ht := toward_aux (seen_len hp a) (seen_up hp hs) hx hy hb nb
  have h3 : unitOf a = turned (aquaGyro f q g) (seen (aquaGyro f q g) a) := (turned_inv hp _).symm
  rw [e']
  unfold aquaAcc
  rw [turned_mul hp nb]
  rw [h3, turned_dot hp, turned_dot hp]
  exact ht

end Verif
