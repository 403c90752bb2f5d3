import Verif.Props.Fusion2
import Verif.Props.Attitude

/-!
# C63, C65, C98: initialisation, the complementary filter and SAAM
-/

namespace Verif

open Quaternion Matrix Out

/-- C65. Every filter's init rejects the frequency 0 and keeps the old one; every other frequency becomes effective. -/
theorem fus_init_correct (freq old : ℕ) : fusInit freq old = if freq = 0 then (-EINVAL, old) else (0, freq) := by
  unfold fusInit
  by_cases h : freq = 0
  · rw [if_pos (by omega), if_pos h]
  · rw [if_neg (by omega), if_neg h]

/-! ### Complementary filter -/

/-- The orientation computed from accelerometer and magnetometer alone: from the Euler angles roll, pitch, yaw. -/
noncomputable def quatAm (a m : V3) : ℍ[ℝ] :=
  hq (Real.cos (there (rollOf a) / 2)) (Real.sin (there (rollOf a) / 2)) 0 0 *
    hq (Real.cos (there (pitchOf a) / 2)) 0 (Real.sin (there (pitchOf a) / 2)) 0 *
    hq (Real.cos (there (yawOf a m) / 2)) 0 0 (Real.sin (there (yawOf a m) / 2))

theorem norm_quatAm (a m : V3) : ‖quatAm a m‖ = 1 := by
  unfold quatAm
  rw [norm_mul, norm_mul, (norm_hq_cs _).1, (norm_hq_cs _).2.1, (norm_hq_cs _).2.2]; norm_num

theorem quatAm_eq (a m : V3) :
    quatFromEuler (attToEuler (⟨degrees (rollOf a), degrees (pitchOf a), degrees (yawOf a m)⟩ : Attitude XR)) = quat (quatAm a m) := by
  simp only [attToEuler, degrees, degToRad_eq, XR.fin_mul]
  rw [quat_from_euler_correct]
  rfl

theorem compQw (junk : ℕ → XR) {f : ℕ} (hf : 0 < f) (w : V3) (q : ℍ[ℝ]) :
    quatFromAngVel (vec w []) (quat (direction q)) (lit 1 / CReal.ofNat f) (quatJunk junk) = ok (0, quat (eulerStep f w q)) := by
  rw [dt_eq hf, quatFromAngVel_vec _ _ _ _ _ (by positivity), direction_direction]
  unfold eulerStep pureQ
  rw [show (1 / (f : ℝ)) / 2 = 1 / (2 * f) by rw [div_div, mul_comm]]

theorem alpha_ok {t : ℝ} (h0 : 0 ≤ t) (h1 : t ≤ 1) : ¬ ((CReal.lt (XR.fin t) (lit 0) || CReal.gt (XR.fin t) (lit 1)) = true) := by
  simp [h0, h1]

theorem alpha_ok' {t : ℝ} (h0 : 0 ≤ t) (h1 : t ≤ 1) (r : Reading) : ¬ (badSize r.sens.a = true ∨ badSize r.sens.m = true ∨ r.sens.g.sz ≠ 3 ∨
    CReal.lt (XR.fin t) (lit 0) = true ∨ CReal.gt (XR.fin t) (lit 1) = true) := by
  simp [Reading.sens, badSize_sensor, h0, h1]

/-- C63. One accepted feed of the complementary filter with valid accelerometer and magnetometer readings blends the gyroscope's estimate
with the one from the two sensors, with the weight `alpha`, and normalises. -/
theorem comp_feed_correct (junk : ℕ → XR) {f : ℕ} (hf : 0 < f) (t : ℝ) (h0 : 0 ≤ t) (h1 : t ≤ 1) (q : ℍ[ℝ]) (hq : 1e-6 ≤ ‖q‖)
    (a m g : V3) (ha : 1e-6 < len a) (hm : 1e-6 < len m) :
    fusCompFeed junk f (XR.fin t) (Reading.sens ⟨some a, some m, g⟩) (quat q) =
      ok (0, quat (direction ((1 - t) • eulerStep f g q + t • quatAm a m))) := by
  unfold fusCompFeed
  rw [if_neg (alpha_ok h0 h1)]
  unfold fusComp
  rw [if_neg (alpha_ok' h0 h1 _), if_neg (quatIsZero_of_le hq)]
  simp only
  rw [quatToUnit_quat, show (Reading.sens ⟨some a, some m, g⟩).g = vec g [] from rfl, compQw junk hf, ok_bind]
  simp only
  rw [show (Reading.sens ⟨some a, some m, g⟩).m = sensor (some m) from rfl, show (Reading.sens ⟨some a, some m, g⟩).a = sensor (some a) from rfl,
    sensValid_some, ok_bind, if_pos (by simpa using hm), sensValid_some, ok_bind, decide_eq_true ha]
  simp only [sensor, Option.map_some]
  rw [attFromAccelmag_vec, ok_bind]
  simp only
  rw [quatAm_eq]
  obtain ⟨c, hc, hc', -⟩ := quat_lerp_correct (eulerStep f g q) (quatAm a m) t (quat (direction q)) h0 h1
  rw [hc, pure_eq]
  simp only
  rw [quatToUnit_quat, hc', direction_direction, direction_of_norm_one (norm_eulerStep f g hq), direction_of_norm_one (norm_quatAm a m)]

/-- C63. Without valid readings of both sensors the complementary filter only advances the attitude with the gyroscope's rate. -/
theorem comp_feed_gyro (junk : ℕ → XR) {f : ℕ} (hf : 0 < f) (t : ℝ) (h0 : 0 ≤ t) (h1 : t ≤ 1) (q : ℍ[ℝ]) (hq : 1e-6 ≤ ‖q‖) (r : Reading)
    (h : (∀ a, r.a = some a → len a ≤ 1e-6) ∨ (∀ m, r.m = some m → len m ≤ 1e-6)) :
    fusCompFeed junk f (XR.fin t) r.sens (quat q) = ok (0, quat (eulerStep f r.g q)) := by
  have hva : (∀ a, r.a = some a → len a ≤ 1e-6) → sensValid (sensor r.a) = ok false := by
    intro h
    cases ha : r.a with
    | none => rfl
    | some a => rw [sensValid_some]; simpa using h a ha
  have hvm : ∀ x, (∀ m, x = some m → len m ≤ 1e-6) → sensValid (sensor x) = ok false := by
    intro x h
    cases x with
    | none => rfl
    | some a => rw [sensValid_some]; simpa using h a rfl
  unfold fusCompFeed
  rw [if_neg (alpha_ok h0 h1)]
  unfold fusComp
  rw [if_neg (alpha_ok' h0 h1 _), if_neg (quatIsZero_of_le hq)]
  simp only
  rw [quatToUnit_quat, show r.sens.g = vec r.g [] from rfl, compQw junk hf, ok_bind]
  simp only
  have fin : (pure (0, quatToUnit (quat (eulerStep f r.g q))) : Out (Int × Quat XR)) = ok (0, quat (eulerStep f r.g q)) := by
    rw [quatToUnit_quat, direction_of_norm_one (norm_eulerStep f r.g hq)]; rfl
  rw [← fin]
  rcases h with h | h
  · have hm : ∃ b, sensValid r.sens.m = ok b := by
      change ∃ b, sensValid (sensor r.m) = ok b
      cases r.m with
      | none => exact ⟨_, rfl⟩
      | some m => exact ⟨_, sensValid_some m⟩
    obtain ⟨b, hb⟩ := hm
    rw [hb, ok_bind, show sensValid r.sens.a = ok false from hva h]
    cases b <;> rfl
  · rw [show sensValid r.sens.m = ok false from hvm _ h]
    rfl

/-- C65. The complementary filter rejects a weight outside `[0, 1]`, sensor vectors that are not three-dimensional and an attitude shorter than `1e-6`, leaving the attitude alone. For every scalar type. -/
theorem comp_feed_rejects {R : Type} [CReal R] (junk : ℕ → R) (f : ℕ) (alpha : R) (s : Sens R) (q : Quat R)
    (h : CReal.lt alpha (lit 0) = true ∨ CReal.gt alpha (lit 1) = true ∨ (∃ a, s.a = some a ∧ a.sz ≠ 3) ∨ (∃ m, s.m = some m ∧ m.sz ≠ 3) ∨
      s.g.sz ≠ 3 ∨ CReal.lt (CReal.abs (quatMagn q)) (lit 1e-6) = true) :
    fusCompFeed junk f alpha s q = ok (-EINVAL, q) := by
  unfold fusCompFeed
  by_cases h1 : (CReal.lt alpha (lit 0) || CReal.gt alpha (lit 1)) = true
  · rw [if_pos h1]
  · rw [if_neg h1]
    simp only [Bool.or_eq_true, not_or] at h1
    unfold fusComp
    by_cases h2 : badSize s.a = true ∨ badSize s.m = true ∨ s.g.sz ≠ 3 ∨ CReal.lt alpha (lit 0) = true ∨ CReal.gt alpha (lit 1) = true
    · rw [if_pos h2]
    · rw [if_neg h2]
      push Not at h2
      obtain ⟨b1, b2, b3, b4⟩ := h2
      rw [if_pos ?_]
      · rcases h with h | h | ⟨a, ha, hs⟩ | ⟨m, hm, hs⟩ | h | h
        · exact absurd h h1.1
        · exact absurd h h1.2
        · rw [ha] at b1; simp [badSize, hs] at b1
        · rw [hm] at b2; simp [badSize, hs] at b2
        · exact absurd b3 h
        · exact h

/-- One call of the complementary filter. -/
structure CompCall where
  freq : ℕ
  pos : 0 < freq
  reading : Reading
  alpha : ℝ

/-- The feed as a transition of the attitude. -/
noncomputable def compCall (junk : ℕ → XR) (i : CompCall) (q : Quat XR) : Out (Int × Quat XR) :=
  fusCompFeed junk i.freq (XR.fin i.alpha) i.reading.sens q

theorem compCall_cases (junk : ℕ → XR) (i : CompCall) (q : ℍ[ℝ]) :
    ∃ rc q', compCall junk i (quat q) = ok (rc, quat q') ∧
      ((rc = 0 ∧ 1e-6 ≤ ‖q‖ ∧ (‖q'‖ = 1 ∨ q' = 0)) ∨ (rc = -EINVAL ∧ q' = q)) := by
  by_cases h : (0 ≤ i.alpha ∧ i.alpha ≤ 1) ∧ 1e-6 ≤ ‖q‖
  · obtain ⟨⟨h0, h1⟩, hq⟩ := h
    by_cases h : (∀ a, i.reading.a = some a → len a ≤ 1e-6) ∨ (∀ m, i.reading.m = some m → len m ≤ 1e-6)
    · exact ⟨0, _, comp_feed_gyro junk i.pos _ h0 h1 q hq _ h, Or.inl ⟨rfl, hq, Or.inl (norm_eulerStep _ _ hq)⟩⟩
    · push Not at h
      obtain ⟨⟨a, ha, hla⟩, ⟨m, hm, hlm⟩⟩ := h
      have := comp_feed_correct junk i.pos _ h0 h1 q hq a m i.reading.g hla hlm
      rw [← ha, ← hm] at this
      exact ⟨0, _, this, Or.inl ⟨rfl, hq, norm_direction_cases _⟩⟩
  · refine ⟨-EINVAL, q, comp_feed_rejects _ _ _ _ _ ?_, Or.inr ⟨rfl, rfl⟩⟩
    by_cases h0 : 0 ≤ i.alpha
    · by_cases h1 : i.alpha ≤ 1
      · refine Or.inr (Or.inr (Or.inr (Or.inr (Or.inr ?_))))
        have h2 := quatIsZero_quat q
        unfold quatIsZero at h2
        rw [h2, decide_eq_true_iff]
        by_contra hc
        exact h ⟨⟨h0, h1⟩, not_lt.1 hc⟩
      · refine Or.inr (Or.inl ?_)
        simpa using h1
    · refine Or.inl ?_
      simpa using h0

/-- C63. Over every history of calls of the complementary filter no call has undefined behaviour, and after each the attitude is a unit
quaternion or zero (code 0) or what it was before (`-EINVAL`). -/
theorem comp_history_unit (junk : ℕ → XR) (calls : List CompCall) (q : ℍ[ℝ]) :
    ∃ t : List (Int × ℍ[ℝ]),
      trace (compCall junk) calls (quat q) = ok (t.map fun x => (x.1, quat x.2)) ∧ t.length = calls.length ∧
      List.IsChain (fun x y => (y.1 = 0 ∧ (‖y.2‖ = 1 ∨ y.2 = 0)) ∨ (y.1 = -EINVAL ∧ y.2 = x.2)) ((0, q) :: t) := by
  refine trace_chain quat (compCall junk) (fun x y => (y.1 = 0 ∧ (‖y.2‖ = 1 ∨ y.2 = 0)) ∨ (y.1 = -EINVAL ∧ y.2 = x)) ?_ calls q 0
  intro i q
  obtain ⟨rc, q', h1, h2⟩ := compCall_cases junk i q
  refine ⟨rc, q', h1, ?_⟩
  rcases h2 with ⟨h, _, h'⟩ | ⟨h, h'⟩
  · exact Or.inl ⟨h, h'⟩
  · exact Or.inr ⟨h, h'⟩

theorem rollOf_up : rollOf up = 0 := by
  unfold rollOf
  rw [unitOf_of_len len_up]
  have : (⟨up 2, up 1⟩ : ℂ) = ((1 : ℝ) : ℂ) := by apply Complex.ext <;> simp [up]
  rw [this, Complex.arg_ofReal_of_nonneg zero_le_one]

theorem pitchOf_up : pitchOf up = 0 := by
  unfold pitchOf
  rw [unitOf_of_len len_up]
  have : (⟨Real.sqrt (up 1 * up 1 + up 2 * up 2), -up 0⟩ : ℂ) = ((1 : ℝ) : ℂ) := by apply Complex.ext <;> simp [up]
  rw [this, Complex.arg_ofReal_of_nonneg zero_le_one]

theorem len_north : len ![1, 0, 0] = 1 := by
  simp [len, dotProduct, Fin.sum_univ_three]

theorem quatAm_rest : quatAm up ![1, 0, 0] = 1 := by
  have hy : yawOf up ![1, 0, 0] = 0 := by
    unfold yawOf level
    rw [unitOf_of_len len_north, rollOf_up, pitchOf_up]
    have : (⟨(![1, 0, 0] : V3) 0 * Real.cos (there 0) + Real.sin (there 0) * ((![1, 0, 0] : V3) 1 * Real.sin (there 0) +
        (![1, 0, 0] : V3) 2 * Real.cos (there 0)), -((![1, 0, 0] : V3) 1 * Real.cos (there 0) - (![1, 0, 0] : V3) 2 * Real.sin (there 0))⟩ : ℂ) =
        ((1 : ℝ) : ℂ) := by apply Complex.ext <;> simp [there]
    rw [this, Complex.arg_ofReal_of_nonneg zero_le_one]
  unfold quatAm
  rw [rollOf_up, pitchOf_up, hy]
  have : hq 1 0 0 0 = 1 := by ext <;> simp
  simp [there, this]

/-- C63. Zero does happen: level, at rest and facing north, with the attitude -1 (the same orientation as 1) and equal weights, the
estimates cancel. -/
theorem comp_zero_attitude (junk : ℕ → XR) {f : ℕ} (hf : 0 < f) :
    fusCompFeed junk f (XR.fin (1 / 2)) (Reading.sens ⟨some up, some ![1, 0, 0], 0⟩) (quat (-1)) = ok (0, quat 0) := by
  have hn : ‖(-1 : ℍ[ℝ])‖ = 1 := by simp
  rw [comp_feed_correct junk hf _ (by norm_num) (by norm_num) (-1) (by rw [hn]; norm_num) up ![1, 0, 0] 0 (by rw [len_up]; norm_num)
    (by rw [len_north]; norm_num), quatAm_rest]
  have he : eulerStep f 0 (-1) = -1 := by
    have : pureQ 0 = 0 := by ext <;> simp [pureQ]
    unfold eulerStep
    rw [this, smul_zero, add_zero, one_mul, direction_direction, direction_of_norm_one hn]
  rw [he, show (1 - (1 / 2 : ℝ)) = 1 / 2 by norm_num, smul_neg, neg_add_cancel]
  unfold direction
  rw [if_pos (by norm_num)]

/-! ### SAAM -/

/-- The quaternion SAAM computes from the unit readings `a` and `m`, before normalisation. -/
noncomputable def saamRaw (a m : V3) : ℍ[ℝ] :=
  hq (-a 1 * (Real.sqrt (1 - (a ⬝ᵥ m) * (a ⬝ᵥ m)) + m 0) + a 0 * m 1)
    ((a 2 - 1) * (Real.sqrt (1 - (a ⬝ᵥ m) * (a ⬝ᵥ m)) + m 0) + a 0 * (a ⬝ᵥ m - m 2))
    ((a 2 - 1) * m 1 + a 1 * (a ⬝ᵥ m - m 2)) (a 2 * (a ⬝ᵥ m) - a 0 * Real.sqrt (1 - (a ⬝ᵥ m) * (a ⬝ᵥ m)) - m 2)

theorem dot_unit_le (a m : V3) : (unitOf a ⬝ᵥ unitOf m) * (unitOf a ⬝ᵥ unitOf m) ≤ 1 := by
  have := dot_sq_le (unitOf a) (unitOf m)
  rw [show unitOf a ⬝ᵥ unitOf a = 1 by simpa [dotProduct, pow_two] using unitOf_norm a,
    show unitOf m ⬝ᵥ unitOf m = 1 by simpa [dotProduct, pow_two] using unitOf_norm m] at this
  nlinarith

theorem saam_feed_vec (junk : ℕ → XR) (a m g : V3) (ha : 1e-6 ≤ len a) (hm : 1e-6 ≤ len m) (q : Quat XR) :
    fusSaamFeed junk (Reading.sens ⟨some a, some m, g⟩) q =
      ok (0, Reading.sens ⟨some (unitOf a), some (unitOf m), g⟩, quat (direction (saamRaw (unitOf a) (unitOf m)))) := by
  have hd := dot_unit_le a m
  unfold fusSaamFeed
  simp only [Reading.sens, sensor, Option.map_some]
  rw [if_neg (by simp), if_neg (by simp), vecNorm_len, ok_bind, XR.fin_abs, lit_micro, if_neg (by
    rw [XR.fin_lt, abs_of_nonneg (len_nonneg m)]; exact not_lt.2 hm), vecNorm_len, ok_bind, XR.fin_abs, if_neg (by
    rw [XR.fin_lt, abs_of_nonneg (len_nonneg a)]; exact not_lt.2 ha), vecToUnit_vec, ok_bind]
  simp only
  rw [vecToUnit_vec, ok_bind]
  simp only
  rw [vecDot_vec, ok_bind]
  simp only
  obtain ⟨r0, r1, r2⟩ := vec3_rd (unitOf a) []
  obtain ⟨s0, s1, s2⟩ := vec3_rd (unitOf m) []
  rw [r0, r1, r2, s0, s1, s2]
  simp only [ok_bind, pure_eq, XR.fin_mul, XR.lit_eq, XR.fin_sub, Rat.cast_one]
  rw [XR.fin_sqrt (by linarith)]
  simp only [XR.fin_mul, XR.fin_sub, XR.fin_add, XR.fin_neg]
  rw [← quatToUnit_quat]
  rfl

/-- What SAAM computes satisfies the two equations `up q = q a` and `b q = q m`, with `b` the field in the earth's frame. -/
theorem saamRaw_spec (a m : V3) (ha : a 0 ^ 2 + a 1 ^ 2 + a 2 ^ 2 = 1) (hm : m 0 ^ 2 + m 1 ^ 2 + m 2 ^ 2 = 1) (hd : (a ⬝ᵥ m) * (a ⬝ᵥ m) ≤ 1) :
    pureQ up * saamRaw a m = saamRaw a m * pureQ a ∧
    pureQ ![Real.sqrt (1 - (a ⬝ᵥ m) * (a ⬝ᵥ m)), 0, a ⬝ᵥ m] * saamRaw a m = saamRaw a m * pureQ m := by
  have hx := Real.mul_self_sqrt (show 0 ≤ 1 - (a ⬝ᵥ m) * (a ⬝ᵥ m) by linarith)
  have hb : a ⬝ᵥ m = a 0 * m 0 + a 1 * m 1 + a 2 * m 2 := by simp [dotProduct, Fin.sum_univ_three]
  unfold saamRaw pureQ up
  generalize Real.sqrt (1 - (a ⬝ᵥ m) * (a ⬝ᵥ m)) = bx at *
  generalize a ⬝ᵥ m = bz at *
  generalize a 0 = a0 at *
  generalize a 1 = a1 at *
  generalize a 2 = a2 at *
  generalize m 0 = m0 at *
  generalize m 1 = m1 at *
  generalize m 2 = m2 at *
  constructor <;> ext <;>
    simp only [Quaternion.re_mul, Quaternion.imI_mul, Quaternion.imJ_mul, Quaternion.imK_mul, hq_re, hq_imI, hq_imJ, hq_imK,
      Matrix.cons_val_zero, Matrix.cons_val_one, Matrix.cons_val] <;> grind

/-- C98. For readings of at least `1e-6` whose SAAM quaternion is at least `1e-6` long, the returned attitude `u` is a unit quaternion
with `u⁻¹ up u` the measured direction of gravity and `u⁻¹ b u` the measured direction of the field, where `b` has no east component and
a nonnegative north component: the attitude explains both measurements exactly. Both readings are normalised in place. Missing for the full
claim: readings for which the quaternion vanishes, see `saam_level_zero`. -/
theorem saam_feed_partial (junk : ℕ → XR) (a m g : V3) (ha : 1e-6 ≤ len a) (hm : 1e-6 ≤ len m) (q : Quat XR)
    (hr : 1e-6 ≤ ‖saamRaw (unitOf a) (unitOf m)‖) :
    ∃ (u : ℍ[ℝ]) (bx bz : ℝ), fusSaamFeed junk (Reading.sens ⟨some a, some m, g⟩) q =
        ok (0, Reading.sens ⟨some (unitOf a), some (unitOf m), g⟩, quat u) ∧
      ‖u‖ = 1 ∧ 0 ≤ bx ∧ bx ^ 2 + bz ^ 2 = 1 ∧
      u⁻¹ * pureQ up * u = pureQ (unitOf a) ∧ u⁻¹ * pureQ ![bx, 0, bz] * u = pureQ (unitOf m) := by
  have hd := dot_unit_le a m
  obtain ⟨h1, h2⟩ := saamRaw_spec (unitOf a) (unitOf m) (unitOf_sq a) (unitOf_sq m) hd
  have hn := norm_direction hr
  have hu : direction (saamRaw (unitOf a) (unitOf m)) ≠ 0 := fun h => by simp [h] at hn
  have hdir : direction (saamRaw (unitOf a) (unitOf m)) = ‖saamRaw (unitOf a) (unitOf m)‖⁻¹ • saamRaw (unitOf a) (unitOf m) := by
    unfold direction; rw [if_neg (not_lt.2 hr)]
  refine ⟨_, Real.sqrt (1 - (unitOf a ⬝ᵥ unitOf m) * (unitOf a ⬝ᵥ unitOf m)), unitOf a ⬝ᵥ unitOf m, saam_feed_vec junk a m g ha hm q, hn,
    Real.sqrt_nonneg _, ?_, ?_, ?_⟩
  · rw [Real.sq_sqrt (by linarith)]; ring
  · rw [mul_assoc, inv_mul_eq_iff_eq_mul₀ hu, hdir, mul_smul_comm, smul_mul_assoc, h1]
  · rw [mul_assoc, inv_mul_eq_iff_eq_mul₀ hu, hdir, mul_smul_comm, smul_mul_assoc, h2]

example : 1e-6 ≤ ‖saamRaw (unitOf ![0, 1, 0]) (unitOf ![1, 0, 0])‖ := by
  have h1 : len ![0, 1, 0] = 1 := by simp [len, dotProduct, Fin.sum_univ_three]
  rw [unitOf_of_len len_north, unitOf_of_len h1, norm_quat]
  simp [saamRaw, dotProduct, Fin.sum_univ_three]
  rw [Real.le_sqrt' (by norm_num)]
  norm_num

/-- C98. SAAM fails for every level reading (gravity along the z axis), whatever the field: the accepted call returns the zero
quaternion. -/
theorem saam_level_zero (junk : ℕ → XR) (z : ℝ) (hz : 1e-6 ≤ z) (m g : V3) (hm : 1e-6 ≤ len m) (q : Quat XR) :
    ∃ s', fusSaamFeed junk (Reading.sens ⟨some ![0, 0, z], some m, g⟩) q = ok (0, s', quat 0) := by
  have hpos : 0 < z := lt_of_lt_of_le (by norm_num) hz
  have hl : len ![0, 0, z] = z := by
    simp [len, dotProduct, Fin.sum_univ_three, Real.sqrt_mul_self hpos.le]
  have hne : (![0, 0, z] : V3) ≠ 0 := fun h => hpos.ne' (by simpa using congrFun h 2)
  have hu : unitOf ![0, 0, z] = up := by
    have h := unitOf_smul hne
    rw [hl] at h
    ext i
    have hi := congrFun h i
    simp only [Pi.smul_apply, smul_eq_mul] at hi
    have : unitOf ![0, 0, z] i = (![0, 0, z] : V3) i / z := by rw [hi]; field_simp
    rw [this]
    fin_cases i <;> simp [up, hpos.ne']
  have hd : up ⬝ᵥ unitOf m = unitOf m 2 := by simp [up, dotProduct, Fin.sum_univ_three]
  have h0 : saamRaw up (unitOf m) = 0 := by
    unfold saamRaw
    rw [hd]
    ext <;> simp [up]
  have key := saam_feed_vec junk ![0, 0, z] m g (by rw [hl]; exact hz) hm q
  rw [hu, h0, show direction (0 : ℍ[ℝ]) = 0 by unfold direction; rw [if_pos (by norm_num)]] at key
  exact ⟨_, key⟩

/-- C63, C98. A SAAM feed never has undefined behaviour when both sensors are given, and either returns a unit or zero quaternion with
code 0, or rejects readings shorter than `1e-6` and changes nothing. -/
theorem saam_feed_unit (junk : ℕ → XR) (a m g : V3) (q : Quat XR) :
    (∃ s' u, fusSaamFeed junk (Reading.sens ⟨some a, some m, g⟩) q = ok (0, s', quat u) ∧ (‖u‖ = 1 ∨ u = 0)) ∨
    ((len a < 1e-6 ∨ len m < 1e-6) ∧
      fusSaamFeed junk (Reading.sens ⟨some a, some m, g⟩) q = ok (-EINVAL, Reading.sens ⟨some a, some m, g⟩, q)) := by
  by_cases ha : 1e-6 ≤ len a
  · by_cases hm : 1e-6 ≤ len m
    · exact Or.inl ⟨_, _, saam_feed_vec junk a m g ha hm q, norm_direction_cases _⟩
    · refine Or.inr ⟨Or.inr (not_le.1 hm), ?_⟩
      unfold fusSaamFeed
      simp only [Reading.sens, sensor, Option.map_some]
      rw [if_neg (by simp), if_neg (by simp), vecNorm_len, ok_bind, XR.fin_abs, lit_micro, if_pos (by
        rw [XR.fin_lt, abs_of_nonneg (len_nonneg m)]; exact not_le.1 hm)]
  · refine Or.inr ⟨Or.inl (not_le.1 ha), ?_⟩
    unfold fusSaamFeed
    simp only [Reading.sens, sensor, Option.map_some]
    rw [if_neg (by simp), if_neg (by simp), vecNorm_len, ok_bind]
    split_ifs with h1
    · rfl
    · rw [vecNorm_len, ok_bind, XR.fin_abs, lit_micro, if_pos (by
        rw [XR.fin_lt, abs_of_nonneg (len_nonneg a)]; exact not_le.1 ha)]

/-- C65, C98. A missing sensor, which the function documents as an error, is dereferenced before it is checked: undefined behaviour. -/
theorem saam_null_ub {R : Type} [CReal R] (junk : ℕ → R) (m : Option (Vec R)) (a g : Vec R) (ha : a.sz = 3) (q : Quat R) :
    fusSaamFeed junk ⟨none, m, g⟩ q = ub ∧ fusSaamFeed junk ⟨some a, none, g⟩ q = ub := by
  refine ⟨rfl, ?_⟩
  unfold fusSaamFeed
  simp [ha]

end Verif
