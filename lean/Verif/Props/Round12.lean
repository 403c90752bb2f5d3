import Verif.Props.Round11

/-!
# Integrating a gyroscope in floating point (C162)
-/

set_option linter.unusedSectionVars false

namespace Verif

open Out Quaternion

variable {F : Rounding}

/-- The unit quaternion along `q`. -/
noncomputable def qdir (q : ℍ[ℝ]) : ℍ[ℝ] := ‖q‖⁻¹ • q

/-- A gyroscope reading: the components of the pure quaternion `w`. -/
def gyroF (F : Rounding) (w : ℍ[ℝ]) : Vec (FX F) := ⟨3, [FX.of F w.imI, FX.of F w.imJ, FX.of F w.imK]⟩

theorem norm_qdir {q : ℍ[ℝ]} (h : q ≠ 0) : ‖qdir q‖ = 1 := by
  rw [qdir, norm_smul, norm_inv, norm_norm, inv_mul_cancel₀ (norm_ne_zero_iff.2 h)]

/-- Directions of close quaternions are close. -/
theorem qdir_close {a b : ℍ[ℝ]} (ha : a ≠ 0) (hb : b ≠ 0) {e : ℝ} (h : ‖a - b‖ ≤ e * ‖b‖) : ‖qdir a - qdir b‖ ≤ 2 * e := by
  have ha' : 0 < ‖a‖ := norm_pos_iff.2 ha
  have hb' : 0 < ‖b‖ := norm_pos_iff.2 hb
  have e1 : qdir a - qdir b = ((‖b‖ - ‖a‖) / ‖b‖) • qdir a + ‖b‖⁻¹ • (a - b) := by
    unfold qdir
    rw [smul_smul, smul_sub]
    have : (‖b‖ - ‖a‖) / ‖b‖ * ‖a‖⁻¹ = ‖a‖⁻¹ - ‖b‖⁻¹ := by field_simp
    rw [this, sub_smul]
    abel
  have h1 : ‖((‖b‖ - ‖a‖) / ‖b‖) • qdir a‖ ≤ e := by
    rw [norm_smul, norm_qdir ha, mul_one, Real.norm_eq_abs, abs_div, abs_of_pos hb', div_le_iff₀ hb']
    rw [abs_sub_comm]
    exact (abs_norm_sub_norm_le a b).trans h
  have h2 : ‖‖b‖⁻¹ • (a - b)‖ ≤ e := by
    rw [norm_smul, norm_inv, norm_norm, ← div_eq_inv_mul, div_le_iff₀ hb']
    exact h
  rw [e1]
  exact (norm_add_le _ _).trans (by linarith)

theorem qdir_mul (a b : ℍ[ℝ]) : qdir (a * b) = qdir a * qdir b := by
  unfold qdir
  rw [norm_mul, smul_mul_smul_comm, mul_inv]

/-- The product with a number, as computed. -/
noncomputable def fscale (F : Rounding) (x : ℍ[ℝ]) (s : ℝ) : ℍ[ℝ] :=
  hq (F.rnd (x.re * s)) (F.rnd (x.imI * s)) (F.rnd (x.imJ * s)) (F.rnd (x.imK * s))

/-- The sum, as computed. -/
noncomputable def fadd (F : Rounding) (x y : ℍ[ℝ]) : ℍ[ℝ] :=
  hq (F.rnd (x.re + y.re)) (F.rnd (x.imI + y.imI)) (F.rnd (x.imJ + y.imJ)) (F.rnd (x.imK + y.imK))

theorem quatScale_F (x : ℍ[ℝ]) (s : ℝ) : quatScale (qF F x) (FX.of F s) = qF F (fscale F x s) := rfl

theorem quatSum_F (x y : ℍ[ℝ]) : quatSum (qF F x) (qF F y) = qF F (fadd F x y) := rfl

theorem ErrQ.scale {k l : ℕ} {x y p : ℍ[ℝ]} {s t r : ℝ} (h : ErrQ F k x y p) (h' : Err F.u l s t r) :
    ErrQ F (k + l + 1) (fscale F x s) (t • y) (r • p) := by
  refine ⟨?_, ?_, ?_, ?_⟩
  · rw [re_smul, re_smul, smul_eq_mul, smul_eq_mul, mul_comm t, mul_comm r]; exact (h.re.mul h').rnd
  · rw [imI_smul, imI_smul, smul_eq_mul, smul_eq_mul, mul_comm t, mul_comm r]; exact (h.imI.mul h').rnd
  · rw [imJ_smul, imJ_smul, smul_eq_mul, smul_eq_mul, mul_comm t, mul_comm r]; exact (h.imJ.mul h').rnd
  · rw [imK_smul, imK_smul, smul_eq_mul, smul_eq_mul, mul_comm t, mul_comm r]; exact (h.imK.mul h').rnd

theorem ErrQ.add {k : ℕ} {x y p x' y' p' : ℍ[ℝ]} (h : ErrQ F k x y p) (h' : ErrQ F k x' y' p') :
    ErrQ F (k + 1) (fadd F x x') (y + y') (p + p') :=
  ⟨(h.re.add h'.re).rnd, (h.imI.add h'.imI).rnd, (h.imJ.add h'.imJ).rnd, (h.imK.add h'.imK).rnd⟩

/-- The length of `1 + x w` for a pure `w`. -/
theorem norm_one_add_pure (w : ℍ[ℝ]) (hw : w.re = 0) (x : ℝ) : ‖1 + x • w‖ ^ 2 = 1 + (x * ‖w‖) ^ 2 := by
  rw [mul_pow, norm_sq_quat, norm_sq_quat]
  simp [hw]
  ring

theorem norm_half {c : ℍ[ℝ]} (hu : F.u ≤ 1 / 16) (h : Near F.u 12 (‖c‖ ^ 2) 1) : 1 / 2 ≤ ‖c‖ := by
  obtain ⟨t, ht, et⟩ := h
  have : (15 / 16 : ℝ) ^ 12 ≤ ‖c‖ ^ 2 := by
    rw [et, one_mul]
    exact (pow_le_pow_left₀ (by norm_num) (by linarith) 12).trans ht.1
  exact abs_le_of_sq_le_sq' ((le_trans (by norm_num) this)) (norm_nonneg _) |>.2

theorem gam8_small (hu : F.u ≤ 1 / 64) : gam F.u 8 ≤ 1 / 6 := by
  have h : (63 / 64 : ℝ) ^ 8 ≤ (1 - F.u) ^ 8 := pow_le_pow_left₀ (by norm_num) (by linarith) 8
  have h0 : (0 : ℝ) < (1 - F.u) ^ 8 := lt_of_lt_of_le (by norm_num) h
  unfold gam
  have : ((1 - F.u) ^ 8)⁻¹ ≤ ((63 / 64 : ℝ) ^ 8)⁻¹ := inv_anti₀ (by norm_num) h
  have h2 : ((63 / 64 : ℝ) ^ 8)⁻¹ ≤ 1 + 1 / 6 := by norm_num
  linarith

/-- C162. One step of `zsl_quat_from_ang_vel` with rounding, for every angular velocity and every time step: the stored quaternion has length one up to
twelve roundings of its square, and is off the direction of `(1 + t/2 w) q` by at most nine times eight roundings. -/
theorem quat_from_ang_vel_rounding (F : Rounding) (hu : F.u ≤ 1 / 64) (w q : ℍ[ℝ]) (hw : w.re = 0) (hq : 2e-6 ≤ ‖q‖) (t : ℝ) (ht : 0 ≤ t)
    (qout : Quat (FX F)) :
    ∃ c : ℍ[ℝ], quatFromAngVel (gyroF F w) (qF F q) (FX.of F t) qout = ok (0, qF F c) ∧ Near F.u 12 (‖c‖ ^ 2) 1 ∧
      ‖c - qdir ((1 + (t / 2) • w) * q)‖ ≤ 9 * gam F.u 8 := by
  have hu' : F.u ≤ 1 / 16 := by linarith
  obtain ⟨c, ec, ⟨n1, n2, n3, n4⟩, hc⟩ := quatToUnit_err hu' q hq
  have hcn := norm_half hu' hc
  have hc0 : c ≠ 0 := norm_pos_iff.1 (by linarith)
  have hq0 : q ≠ 0 := norm_pos_iff.1 (by linarith)
  -- the half time step
  have hh : Err F.u 2 (F.rnd (F.rnd (1 / 2) * t)) (t / 2) (t / 2) := by
    have := ((F.near (1 / 2)).mul F (Near.refl F (k := 0) t)).rnd F
    rw [show 1 / 2 * t = t / 2 by ring] at this
    have := this.toErr
    rwa [abs_of_nonneg (by linarith : 0 ≤ t / 2)] at this
  -- the sum before normalising
  set s := fadd F c (fscale F (fmul F w c) (F.rnd (F.rnd (1 / 2) * t))) with hs
  have hsum := ((ErrQ.exact (F := F) c).mono (show 0 ≤ 7 by omega)).add
    (((ErrQ.exact (F := F) w).mul (ErrQ.exact c)).scale hh)
  have hnorm := hsum.norm
  rw [← hs] at hnorm
  norm_num only at hnorm
  set y := c + (t / 2) • (w * c) with hy
  have hyc : y = (1 + (t / 2) • w) * c := by rw [hy, add_mul, one_mul, smul_mul_assoc]
  set v := 1 + (t / 2) • w with hv
  have hv2 := norm_one_add_pure w hw (t / 2)
  rw [← hv] at hv2
  have hv1 : 1 ≤ ‖v‖ := by
    refine abs_le_of_sq_le_sq' ?_ (norm_nonneg _) |>.2
    nlinarith [sq_nonneg (t / 2 * ‖w‖)]
  have hv0 : v ≠ 0 := norm_pos_iff.1 (by linarith)
  have hyn : ‖y‖ = ‖v‖ * ‖c‖ := by rw [hyc, norm_mul]
  have hsize : ‖qabs c + (t / 2) • amul (qabs w) (qabs c)‖ ≤ 3 * ‖y‖ := by
    have h1 := norm_amul (qabs w) (qabs c)
    rw [norm_qabs, norm_qabs] at h1
    have h2 : ‖(t / 2) • amul (qabs w) (qabs c)‖ ≤ t / 2 * (2 * (‖w‖ * ‖c‖)) := by
      rw [norm_smul, Real.norm_eq_abs, abs_of_nonneg (by linarith : 0 ≤ t / 2)]
      exact mul_le_mul_of_nonneg_left h1 (by linarith)
    have h3 := norm_add_le (qabs c) ((t / 2) • amul (qabs w) (qabs c))
    rw [norm_qabs] at h3
    have h4 : 1 + t * ‖w‖ ≤ 3 * ‖v‖ := by
      refine abs_le_of_sq_le_sq' ?_ (by positivity) |>.2
      rw [mul_pow, hv2]
      nlinarith [sq_nonneg (t * ‖w‖ - 4 / 5), sq_nonneg (t * ‖w‖)]
    have h5 := mul_le_mul_of_nonneg_right h4 (norm_nonneg c)
    rw [hyn]
    linarith
  have hg := gam_nonneg F.u_nonneg F.u_lt 8
  have hg6 := gam8_small hu
  have hsy : ‖s - y‖ ≤ 3 * gam F.u 8 * ‖y‖ := by
    have := mul_le_mul_of_nonneg_left hsize hg
    linarith
  have hyb : 1 / 2 ≤ ‖y‖ := by
    rw [hyn]
    nlinarith
  have hsb : 1 / 4 ≤ ‖s‖ := by
    have h1 : ‖y‖ ≤ ‖s‖ + ‖s - y‖ := by
      have := norm_sub_norm_le y s
      rw [norm_sub_rev y s] at this
      linarith
    nlinarith
  have hs0 : s ≠ 0 := norm_pos_iff.1 (by linarith)
  have hy0 : y ≠ 0 := norm_pos_iff.1 (by linarith)
  obtain ⟨d, ed, ⟨m1, m2, m3, m4⟩, hd⟩ := quatToUnit_err hu' s (by linarith)
  refine ⟨d, ?_, hd, ?_⟩
  · unfold quatFromAngVel
    rw [if_neg (by
      simp only [gyroF, ne_eq, not_true_eq_false, false_or, FX.lit_eq, Rat.cast_zero, F.rnd_zero, FX.of_lt, not_lt]
      exact ht)]
    have l0 : (lit 0 : FX F) = FX.of F w.re := by rw [FX.lit_eq, Rat.cast_zero, F.rnd_zero, hw]
    have l5 : (lit 0.5 : FX F) = FX.of F (F.rnd (1 / 2)) := by rw [FX.lit_eq]; norm_num
    simp only [gyroF, rd, List.getElem?_cons_zero, List.getElem?_cons_succ, ok_bind, pure_eq]
    rw [ec, l0, l5, FX.of_mul]
    change ok (0, quatToUnit (quatSum (qF F c) (quatScale (quatMult (qF F w) (qF F c)) _))) = _
    rw [quatMult_F, quatScale_F, quatSum_F, ed]
  · have h1 : ‖d - qdir s‖ ≤ gam F.u 8 := by
      have := (ErrQ.of_near m1 m2 m3 m4).norm
      change ‖d - qdir s‖ ≤ gam F.u 6 * ‖qabs (qdir s)‖ at this
      rw [norm_qabs, norm_qdir hs0, mul_one] at this
      exact this.trans (gam_mono F (by omega))
    have h2 := qdir_close hs0 hy0 hsy
    have h3 : ‖qdir c - qdir (qdir q)‖ ≤ 2 * gam F.u 8 := by
      have := (ErrQ.of_near n1 n2 n3 n4).norm
      change ‖c - qdir q‖ ≤ gam F.u 6 * ‖qabs (qdir q)‖ at this
      rw [norm_qabs] at this
      refine qdir_close hc0 (norm_pos_iff.1 (by rw [norm_qdir hq0]; norm_num)) (this.trans ?_)
      exact mul_le_mul_of_nonneg_right (gam_mono F (by omega)) (norm_nonneg _)
    have h4 : qdir (qdir q) = qdir q := by
      conv_lhs => rw [qdir, norm_qdir hq0, inv_one, one_smul]
    rw [h4] at h3
    have h5 : ‖qdir y - qdir (v * q)‖ ≤ 2 * gam F.u 8 := by
      rw [hyc, qdir_mul, qdir_mul, ← mul_sub, norm_mul, norm_qdir hv0, one_mul]
      exact h3
    have e : d - qdir (v * q) = (d - qdir s) + (qdir s - qdir y) + (qdir y - qdir (v * q)) := by abel
    rw [e]
    have := norm_add₃_le (a := d - qdir s) (b := qdir s - qdir y) (c := qdir y - qdir (v * q))
    linarith

/-! ## Histories -/

theorem qdir_of_unit {q : ℍ[ℝ]} (h : ‖q‖ = 1) : qdir q = q := by rw [qdir, h, inv_one, one_smul]

theorem one_add_ne {w : ℍ[ℝ]} (hw : w.re = 0) (x : ℝ) : 1 + x • w ≠ 0 := by
  intro h
  have := congrArg QuaternionAlgebra.re h
  simp [hw] at this

/-- The attitude after a list of readings `w` lasting `t` each, without rounding. -/
noncomputable def gyroExact (l : List (ℍ[ℝ] × ℝ)) (q : ℍ[ℝ]) : ℍ[ℝ] := l.foldl (fun q x => qdir ((1 + (x.2 / 2) • x.1) * q)) (qdir q)

/-- The quaternion stored by a list of calls of `zsl_quat_from_ang_vel`, each starting from the last one. -/
noncomputable def gyroRun (F : Rounding) (l : List (ℍ[ℝ] × ℝ)) (q : Quat (FX F)) : Out (Quat (FX F)) :=
  l.foldlM (fun q x => quatFromAngVel (gyroF F x.1) q (FX.of F x.2) q >>= fun r => ok r.2) q

theorem gyro_run_aux (hu : F.u ≤ 1 / 64) (l : List (ℍ[ℝ] × ℝ)) (hl : ∀ x ∈ l, x.1.re = 0 ∧ 0 ≤ x.2) :
    ∀ (q E : ℍ[ℝ]) (e : ℝ), 2e-6 ≤ ‖q‖ → ‖E‖ = 1 → ‖qdir q - E‖ ≤ e →
      ∃ c : ℍ[ℝ], gyroRun F l (qF F q) = ok (qF F c) ∧ (l = [] → c = q) ∧ (l ≠ [] → Near F.u 12 (‖c‖ ^ 2) 1) ∧
        ‖qdir c - l.foldl (fun q x => qdir ((1 + (x.2 / 2) • x.1) * q)) E‖ ≤ e + l.length * (18 * gam F.u 8) := by
  induction l with
  | nil =>
    intro q E e _ _ h
    exact ⟨q, rfl, fun _ => rfl, fun h => absurd rfl h, by simpa using h⟩
  | cons x l ih =>
    intro q E e hq hE he
    obtain ⟨hx, ht⟩ := hl x (List.mem_cons_self ..)
    obtain ⟨c, ec, hc, hd⟩ := quat_from_ang_vel_rounding F hu x.1 q hx hq x.2 ht (qF F q)
    have hcn := norm_half (by linarith : F.u ≤ 1 / 16) hc
    have hc0 : c ≠ 0 := norm_pos_iff.1 (by linarith)
    have hq0 : q ≠ 0 := norm_pos_iff.1 (by linarith)
    have hv0 := one_add_ne hx (x.2 / 2)
    have hz : ‖qdir ((1 + (x.2 / 2) • x.1) * q)‖ = 1 := norm_qdir (mul_ne_zero hv0 hq0)
    have hE0 : E ≠ 0 := norm_pos_iff.1 (by rw [hE]; norm_num)
    have hE' : ‖qdir ((1 + (x.2 / 2) • x.1) * E)‖ = 1 := norm_qdir (mul_ne_zero hv0 hE0)
    have h1 : ‖qdir c - qdir ((1 + (x.2 / 2) • x.1) * q)‖ ≤ 18 * gam F.u 8 := by
      have := qdir_close hc0 (norm_pos_iff.1 (by rw [hz]; norm_num)) (e := 9 * gam F.u 8) (by rw [hz, mul_one]; exact hd)
      rw [qdir_of_unit hz] at this
      linarith
    have h2 : ‖qdir ((1 + (x.2 / 2) • x.1) * q) - qdir ((1 + (x.2 / 2) • x.1) * E)‖ ≤ e := by
      rw [qdir_mul, qdir_mul, ← mul_sub, norm_mul, norm_qdir hv0, one_mul, qdir_of_unit hE]
      exact he
    have h3 : ‖qdir c - qdir ((1 + (x.2 / 2) • x.1) * E)‖ ≤ e + 18 * gam F.u 8 := by
      have := norm_sub_le_norm_sub_add_norm_sub (qdir c) (qdir ((1 + (x.2 / 2) • x.1) * q)) (qdir ((1 + (x.2 / 2) • x.1) * E))
      linarith
    obtain ⟨d, ed, hd1, hd2, hd3⟩ := ih (fun y hy => hl y (List.mem_cons_of_mem _ hy)) c _ _ (by linarith) hE' h3
    refine ⟨d, ?_, fun h => by simp at h, fun _ => ?_, ?_⟩
    · unfold gyroRun at ed ⊢
      rw [List.foldlM_cons, ec, ok_bind, ok_bind]
      exact ed
    · by_cases hn : l = []
      · rw [hd1 hn]
        exact hc
      · exact hd2 hn
    · refine hd3.trans ?_
      rw [List.length_cons]
      push_cast
      linarith

/-- C162. Integrating a gyroscope with `zsl_quat_from_ang_vel`, in floating point, over any number of readings, of any size and any duration: the length
stays one (its square up to twelve roundings, however many the readings), and the direction is off that of the exact integration by at most
eighteen times eight roundings for each reading: the error does not grow faster than linearly. -/
theorem gyro_integration_rounding (F : Rounding) (hu : F.u ≤ 1 / 64) (l : List (ℍ[ℝ] × ℝ)) (hl : ∀ x ∈ l, x.1.re = 0 ∧ 0 ≤ x.2) (q : ℍ[ℝ])
    (hq : 2e-6 ≤ ‖q‖) :
    ∃ c : ℍ[ℝ], gyroRun F l (qF F q) = ok (qF F c) ∧ (l ≠ [] → |‖c‖ ^ 2 - 1| ≤ gam F.u 12) ∧
      ‖qdir c - gyroExact l q‖ ≤ l.length * (18 * gam F.u 8) := by
  have hq0 : q ≠ 0 := norm_pos_iff.1 (by linarith)
  obtain ⟨c, ec, _, h1, h2⟩ := gyro_run_aux hu l hl q (qdir q) 0 hq (norm_qdir hq0) (by simp)
  refine ⟨c, ec, fun h => ?_, by simpa [gyroExact] using h2⟩
  have := (h1 h).err F
  simpa using this

/-- Non-vacuity: two readings about different axes, from an attitude that is not normalised, in double precision. -/
example (lib : Libm) : (nearestRounding 52 lib).u ≤ 1 / 64 ∧ (∀ x ∈ [(Verif.hq 0 1 2 3, (1 / 100 : ℝ)), (Verif.hq 0 3 (-1) 0, 1 / 100)], x.1.re = 0 ∧ 0 ≤ x.2) ∧
    2e-6 ≤ ‖Verif.hq 1 2 3 4‖ := by
  refine ⟨?_, ?_, ?_⟩
  · change ((1 : ℝ) / 2) ^ 53 ≤ 1 / 64
    norm_num
  · intro x hx
    fin_cases hx <;> norm_num
  · rw [norm_quat]
    refine Real.le_sqrt_of_sq_le ?_
    norm_num

/-- C162. In double precision the bound for a million readings is below `2e-8`. -/
theorem gyro_million_double (lib : Libm) : 1000000 * (18 * gam (nearestRounding 52 lib).u 8) ≤ 2e-8 := by
  have : (nearestRounding 52 lib).u = (1 / 2) ^ 53 := rfl
  rw [this]
  unfold gam
  norm_num

end Verif
