import Verif.Props.Round12

/-!
# Interpolating attitudes and composing many rotations in floating point (C164)
-/

set_option linter.unusedSectionVars false

namespace Verif

open Out Quaternion

variable {F : Rounding}

/-- The point `t` of the way from the direction of `a` to that of `b`, on the straight line. -/
noncomputable def qchord (a b : ℍ[ℝ]) (t : ℝ) : ℍ[ℝ] := (1 - t) • qdir a + t • qdir b

theorem norm_qchord_le {a b : ℍ[ℝ]} (ha : a ≠ 0) (hb : b ≠ 0) {t : ℝ} (h0 : 0 ≤ t) (h1 : t ≤ 1) : ‖qchord a b t‖ ≤ 1 := by
  refine (norm_add_le _ _).trans ?_
  rw [norm_smul, norm_smul, norm_qdir ha, norm_qdir hb, Real.norm_eq_abs, Real.norm_eq_abs, abs_of_nonneg h0, abs_of_nonneg (by linarith)]
  linarith

/-- Attitudes at most a right angle apart (as quaternions): the chord stays away from zero. -/
theorem norm_qchord_ge {a b : ℍ[ℝ]} (ha : a ≠ 0) (hb : b ≠ 0) {t : ℝ} (h0 : 0 ≤ t) (h1 : t ≤ 1)
    (hab : 0 ≤ a.re * b.re + a.imI * b.imI + a.imJ * b.imJ + a.imK * b.imK) : 2 / 3 ≤ ‖qchord a b t‖ := by
  refine abs_le_of_sq_le_sq' ?_ (norm_nonneg _) |>.2
  have e1 : ‖qdir a‖ ^ 2 = 1 := by rw [norm_qdir ha, one_pow]
  have e2 : ‖qdir b‖ ^ 2 = 1 := by rw [norm_qdir hb, one_pow]
  have e3 : 0 ≤ (qdir a).re * (qdir b).re + (qdir a).imI * (qdir b).imI + (qdir a).imJ * (qdir b).imJ + (qdir a).imK * (qdir b).imK := by
    have : (qdir a).re * (qdir b).re + (qdir a).imI * (qdir b).imI + (qdir a).imJ * (qdir b).imJ + (qdir a).imK * (qdir b).imK =
        ‖a‖⁻¹ * ‖b‖⁻¹ * (a.re * b.re + a.imI * b.imI + a.imJ * b.imJ + a.imK * b.imK) := by
      simp only [qdir, re_smul, imI_smul, imJ_smul, imK_smul, smul_eq_mul]
      ring
    rw [this]
    positivity
  rw [norm_sq_quat] at e1 e2 ⊢
  simp only [qchord, re_add, imI_add, imJ_add, imK_add, re_smul, imI_smul, imJ_smul, imK_smul, smul_eq_mul]
  have h3 : ((1 - t) * (qdir a).re + t * (qdir b).re) ^ 2 + ((1 - t) * (qdir a).imI + t * (qdir b).imI) ^ 2 +
      ((1 - t) * (qdir a).imJ + t * (qdir b).imJ) ^ 2 + ((1 - t) * (qdir a).imK + t * (qdir b).imK) ^ 2 =
      (1 - t) ^ 2 + t ^ 2 + 2 * (t * (1 - t)) * ((qdir a).re * (qdir b).re + (qdir a).imI * (qdir b).imI + (qdir a).imJ * (qdir b).imJ + (qdir a).imK * (qdir b).imK) := by
    linear_combination (1 - t) ^ 2 * e1 + t ^ 2 * e2
  rw [h3]
  have := mul_nonneg (mul_nonneg (by norm_num : (0 : ℝ) ≤ 2) (mul_nonneg h0 (by linarith : 0 ≤ 1 - t))) e3
  nlinarith [sq_nonneg (t - 1 / 2)]

/-- C164. `zsl_quat_lerp` with rounding: for attitudes longer than `2e-6` the stored quaternion has length one (its square up to twelve roundings), and is
off the direction of the point of the chord by three times nine roundings divided by the length of the chord there, as long as that length is not
tiny. -/
theorem quat_lerp_rounding (F : Rounding) (hu : F.u ≤ 1 / 16) (a b : ℍ[ℝ]) (ha : 2e-6 ≤ ‖a‖) (hb : 2e-6 ≤ ‖b‖) (t : ℝ) (h0 : 0 ≤ t) (h1 : t ≤ 1)
    (hl : 2e-6 + gam F.u 9 ≤ ‖qchord a b t‖) (qi : Quat (FX F)) :
    ∃ c : ℍ[ℝ], quatLerp (qF F a) (qF F b) (FX.of F t) qi = (0, qF F c) ∧ |‖c‖ ^ 2 - 1| ≤ gam F.u 12 ∧
      ‖c - qdir (qchord a b t)‖ ≤ 3 * gam F.u 9 / ‖qchord a b t‖ := by
  have ha0 : a ≠ 0 := norm_pos_iff.1 (by linarith)
  have hb0 : b ≠ 0 := norm_pos_iff.1 (by linarith)
  have hg := gam_nonneg F.u_nonneg F.u_lt 9
  have hl0 : 0 < ‖qchord a b t‖ := by linarith
  have hc0 : qchord a b t ≠ 0 := norm_pos_iff.1 hl0
  obtain ⟨a', ea, ⟨n1, n2, n3, n4⟩, -⟩ := quatToUnit_err hu a ha
  obtain ⟨b', eb, ⟨m1, m2, m3, m4⟩, -⟩ := quatToUnit_err hu b hb
  have hA := ErrQ.of_near n1 n2 n3 n4
  have hB := ErrQ.of_near m1 m2 m3 m4
  have ht1 : Err F.u 1 (F.rnd (1 - t)) (1 - t) (1 - t) := by
    have := (F.near (1 - t)).toErr
    rwa [abs_of_nonneg (by linarith : 0 ≤ 1 - t)] at this
  have ht2 : Err F.u 0 t t t := by
    have := Err.exact F t
    rwa [abs_of_nonneg h0] at this
  set s := fadd F (fscale F a' (F.rnd (1 - t))) (fscale F b' t) with hs
  have hsum := ((hA.scale ht1).add ((hB.scale ht2).mono (show 6 + 0 + 1 ≤ 6 + 1 + 1 by omega))).norm
  rw [← hs] at hsum
  change ‖s - qchord a b t‖ ≤ gam F.u 9 * ‖(1 - t) • qabs (qdir a) + t • qabs (qdir b)‖ at hsum
  have hsz : ‖(1 - t) • qabs (qdir a) + t • qabs (qdir b)‖ ≤ 1 := by
    refine (norm_add_le _ _).trans ?_
    rw [norm_smul, norm_smul, norm_qabs, norm_qabs, norm_qdir ha0, norm_qdir hb0, Real.norm_eq_abs, Real.norm_eq_abs, abs_of_nonneg h0,
      abs_of_nonneg (by linarith)]
    linarith
  have hsum' : ‖s - qchord a b t‖ ≤ gam F.u 9 := hsum.trans (by nlinarith)
  have hsb : 2e-6 ≤ ‖s‖ := by
    have := norm_sub_norm_le (qchord a b t) s
    rw [norm_sub_rev] at this
    linarith
  have hs0 : s ≠ 0 := norm_pos_iff.1 (by linarith)
  obtain ⟨d, ed, ⟨k1, k2, k3, k4⟩, hd⟩ := quatToUnit_err hu s hsb
  refine ⟨d, ?_, by simpa using hd.err F, ?_⟩
  · have l0 : (lit 0 : FX F) = FX.of F 0 := by rw [FX.lit_eq, Rat.cast_zero, F.rnd_zero]
    have l1 : (lit 1 : FX F) = FX.of F 1 := by rw [FX.lit_eq, Rat.cast_one, F.one]
    unfold quatLerp
    rw [l0, l1, if_neg (by simp only [Bool.or_eq_true, FX.of_lt, FX.of_gt]; simp [h0, h1])]
    dsimp only
    rw [ea, eb, FX.of_sub, quatScale_F, quatScale_F, quatSum_F, ed]
  · have h2 : ‖d - qdir s‖ ≤ gam F.u 9 := by
      have := (ErrQ.of_near k1 k2 k3 k4).norm
      change ‖d - qdir s‖ ≤ gam F.u 6 * ‖qabs (qdir s)‖ at this
      rw [norm_qabs, norm_qdir hs0, mul_one] at this
      exact this.trans (gam_mono F (by omega))
    have h3 : ‖qdir s - qdir (qchord a b t)‖ ≤ 2 * (gam F.u 9 / ‖qchord a b t‖) := by
      refine qdir_close hs0 hc0 ?_
      rwa [div_mul_cancel₀ _ hl0.ne']
    have h4 : gam F.u 9 ≤ gam F.u 9 / ‖qchord a b t‖ := by
      rw [le_div_iff₀ hl0]
      have := norm_qchord_le ha0 hb0 h0 h1
      nlinarith
    have h5 := norm_sub_le_norm_sub_add_norm_sub d (qdir s) (qdir (qchord a b t))
    have e : 3 * gam F.u 9 / ‖qchord a b t‖ = 3 * (gam F.u 9 / ‖qchord a b t‖) := by ring
    rw [e]
    linarith

/-- C164. For attitudes on the same side (the four-dimensional scalar product is not negative): the error is below five times nine roundings, at every `t`. -/
theorem quat_lerp_rounding_near (F : Rounding) (hu : F.u ≤ 1 / 64) (a b : ℍ[ℝ]) (ha : 2e-6 ≤ ‖a‖) (hb : 2e-6 ≤ ‖b‖) (t : ℝ) (h0 : 0 ≤ t) (h1 : t ≤ 1)
    (hab : 0 ≤ a.re * b.re + a.imI * b.imI + a.imJ * b.imJ + a.imK * b.imK) (qi : Quat (FX F)) :
    ∃ c : ℍ[ℝ], quatLerp (qF F a) (qF F b) (FX.of F t) qi = (0, qF F c) ∧ |‖c‖ ^ 2 - 1| ≤ gam F.u 12 ∧
      ‖c - qdir (qchord a b t)‖ ≤ 5 * gam F.u 9 := by
  have hL := norm_qchord_ge (norm_pos_iff.1 (by linarith : 0 < ‖a‖)) (norm_pos_iff.1 (by linarith : 0 < ‖b‖)) h0 h1 hab
  have hg := gam_nonneg F.u_nonneg F.u_lt 9
  have hg9 : gam F.u 9 ≤ 1 / 4 := by
    have h : (63 / 64 : ℝ) ^ 9 ≤ (1 - F.u) ^ 9 := pow_le_pow_left₀ (by norm_num) (by linarith) 9
    have h0 : (0 : ℝ) < (1 - F.u) ^ 9 := lt_of_lt_of_le (by norm_num) h
    unfold gam
    have : ((1 - F.u) ^ 9)⁻¹ ≤ ((63 / 64 : ℝ) ^ 9)⁻¹ := inv_anti₀ (by norm_num) h
    have h2 : ((63 / 64 : ℝ) ^ 9)⁻¹ ≤ 1 + 1 / 4 := by norm_num
    linarith
  obtain ⟨c, ec, hc, hd⟩ := quat_lerp_rounding F (by linarith) a b ha hb t h0 h1 (by linarith) qi
  refine ⟨c, ec, hc, hd.trans ?_⟩
  rw [div_le_iff₀ (by linarith)]
  nlinarith

/-- Non-vacuity: two attitudes that are not normalised, half way, in double precision. -/
example (lib : Libm) : (nearestRounding 52 lib).u ≤ 1 / 64 ∧ 2e-6 ≤ ‖Verif.hq 1 2 3 4‖ ∧ 2e-6 ≤ ‖Verif.hq 4 3 2 1‖ ∧
    0 ≤ (Verif.hq 1 2 3 4).re * (Verif.hq 4 3 2 1).re + (Verif.hq 1 2 3 4).imI * (Verif.hq 4 3 2 1).imI +
      (Verif.hq 1 2 3 4).imJ * (Verif.hq 4 3 2 1).imJ + (Verif.hq 1 2 3 4).imK * (Verif.hq 4 3 2 1).imK := by
  refine ⟨?_, ?_, ?_, ?_⟩
  · change ((1 : ℝ) / 2) ^ 53 ≤ 1 / 64
    norm_num
  · rw [norm_quat]
    refine Real.le_sqrt_of_sq_le ?_
    norm_num
  · rw [norm_quat]
    refine Real.le_sqrt_of_sq_le ?_
    norm_num
  · norm_num

/-! ## Composing many rotations -/

/-- C164. Multiplying quaternions one after another with `zsl_quat_mult`, any number of them: the relative error after `n` products is at most
`(1 + 2 γ)^n - 1` with `γ` four roundings. -/
theorem quat_chain_rounding (F : Rounding) (l : List ℍ[ℝ]) : ∀ (q E : ℍ[ℝ]) (e : ℝ), 0 ≤ e → ‖q - E‖ ≤ e * ‖E‖ →
    ∃ c : ℍ[ℝ], l.foldl (fun s x => quatMult s (qF F x)) (qF F q) = qF F c ∧
      ‖c - E * l.prod‖ ≤ ((1 + e) * (1 + 2 * gam F.u 4) ^ l.length - 1) * ‖E * l.prod‖ := by
  have hg := gam_nonneg F.u_nonneg F.u_lt 4
  induction l with
  | nil =>
    intro q E e _ h
    exact ⟨q, rfl, by simpa using h⟩
  | cons x l ih =>
    intro q E e he h
    obtain ⟨c, ec, hc⟩ := quat_mult_norm_rounding F q x
    have hq : ‖q‖ ≤ (1 + e) * ‖E‖ := by
      have := norm_sub_norm_le q E
      linarith
    have h1 : ‖c - E * x‖ ≤ ((1 + e) * (1 + 2 * gam F.u 4) - 1) * ‖E * x‖ := by
      have h2 : ‖q * x - E * x‖ ≤ e * ‖E * x‖ := by
        rw [← sub_mul, norm_mul, norm_mul, ← mul_assoc]
        exact mul_le_mul_of_nonneg_right h (norm_nonneg _)
      have h3 : 2 * gam F.u 4 * (‖q‖ * ‖x‖) ≤ 2 * gam F.u 4 * ((1 + e) * ‖E * x‖) := by
        refine mul_le_mul_of_nonneg_left ?_ (by linarith)
        rw [norm_mul, ← mul_assoc]
        exact mul_le_mul_of_nonneg_right hq (norm_nonneg _)
      have h4 := norm_sub_le_norm_sub_add_norm_sub c (q * x) (E * x)
      linarith
    obtain ⟨d, ed, hd⟩ := ih c (E * x) ((1 + e) * (1 + 2 * gam F.u 4) - 1) (by nlinarith) h1
    refine ⟨d, ?_, ?_⟩
    · rw [List.foldl_cons, ec]
      exact ed
    · rw [List.prod_cons, ← mul_assoc, List.length_cons, pow_succ']
      refine hd.trans (le_of_eq ?_)
      ring

/-- C164. A million products in double precision: the relative error of the composed rotation is below `1e-9`. -/
theorem quat_chain_million_double (lib : Libm) (q : ℍ[ℝ]) (l : List ℍ[ℝ]) (hl : l.length ≤ 1000000) :
    ∃ c : ℍ[ℝ], l.foldl (fun s x => quatMult s (qF (nearestRounding 52 lib) x)) (qF (nearestRounding 52 lib) q) = qF (nearestRounding 52 lib) c ∧
      ‖c - q * l.prod‖ ≤ 1e-9 * ‖q * l.prod‖ := by
  obtain ⟨c, ec, hc⟩ := quat_chain_rounding (nearestRounding 52 lib) l q q 0 le_rfl (by simp)
  refine ⟨c, ec, hc.trans (mul_le_mul_of_nonneg_right ?_ (norm_nonneg _))⟩
  have hu : (nearestRounding 52 lib).u = (1 / 2) ^ 53 := rfl
  have hg : 2 * gam (nearestRounding 52 lib).u 4 ≤ 9e-16 := by
    rw [hu]
    unfold gam
    norm_num
  have hg0 := gam_nonneg (nearestRounding 52 lib).u_nonneg (nearestRounding 52 lib).u_lt 4
  have h1 : (1 + 2 * gam (nearestRounding 52 lib).u 4) ^ l.length ≤ Real.exp 9e-10 := by
    calc (1 + 2 * gam (nearestRounding 52 lib).u 4) ^ l.length ≤ (Real.exp 9e-16) ^ l.length := by
          refine pow_le_pow_left₀ (by linarith) ?_ _
          have := Real.add_one_le_exp (9e-16 : ℝ)
          linarith
      _ = Real.exp (l.length * 9e-16) := by rw [← Real.exp_nat_mul]
      _ ≤ Real.exp 9e-10 := by
          refine Real.exp_le_exp.2 ?_
          have : (l.length : ℝ) ≤ 1000000 := by exact_mod_cast hl
          linarith
  have h2 : Real.exp 9e-10 ≤ 1 + 1e-9 := by
    have := Real.exp_bound_div_one_sub_of_interval (show (0 : ℝ) ≤ 9e-10 by norm_num) (by norm_num)
    refine this.trans ?_
    norm_num
  linarith

end Verif
