import Verif.Lemmas.Fusion
import Mathlib.Analysis.SpecialFunctions.Complex.Arg
import Mathlib.Analysis.Real.Pi.Bounds

/-!
# C95, C96, C97: attitude from accelerometer and magnetometer, compass, gravity
-/

namespace Verif

open Matrix Out

/-- The numbers of an attitude as radians times the factor the library uses for degrees. -/
noncomputable def degrees (x : ℝ) : XR := XR.fin (x * 57.295779513)

theorem radToDeg_eq : (radToDeg : XR) = XR.fin 57.295779513 := by
  unfold radToDeg; rw [XR.lit_eq]; norm_num

theorem degToRad_eq : (degToRad : XR) = XR.fin 0.01745329252 := by
  unfold degToRad; rw [XR.lit_eq]; norm_num

theorem unitOf_smul {v : V3} (h : v ≠ 0) : v = len v • unitOf v := by
  have hp := dotProduct_self_pos' h
  have hs : Real.sqrt (v ⬝ᵥ v) ≠ 0 := (Real.sqrt_pos.2 hp).ne'
  ext i
  unfold unitOf len
  rw [if_neg h]
  simp only [Pi.smul_apply, smul_eq_mul]
  field_simp

theorem unitOf_sq (v : V3) : unitOf v 0 ^ 2 + unitOf v 1 ^ 2 + unitOf v 2 ^ 2 = 1 := by
  have := unitOf_norm v
  rwa [Fin.sum_univ_three] at this

/-- The roll angle of the direction of `a`. -/
noncomputable def rollOf (a : V3) : ℝ := Complex.arg ⟨unitOf a 2, unitOf a 1⟩

/-- The pitch angle of the direction of `a`. -/
noncomputable def pitchOf (a : V3) : ℝ := Complex.arg ⟨Real.sqrt (unitOf a 1 * unitOf a 1 + unitOf a 2 * unitOf a 2), -unitOf a 0⟩

theorem attFromAccel_vec (junk : ℕ → XR) (a : V3) (att : Attitude XR) :
    attFromAccel junk (vec a []) att = ok (0, ⟨degrees (rollOf a), degrees (pitchOf a), XR.fin 0⟩) := by
  unfold attFromAccel
  rw [if_neg (by simp), vecCopy_vec3, ok_bind]
  simp only
  rw [vecToUnit_vec, ok_bind]
  simp only
  obtain ⟨r0, r1, r2⟩ := vec3_rd (unitOf a) []
  rw [r0, r1, r2]
  simp only [ok_bind, XR.fin_mul, XR.fin_add, XR.fin_neg, radToDeg_eq]
  rw [XR.fin_sqrt (add_nonneg (mul_self_nonneg _) (mul_self_nonneg _))]
  simp [degrees, rollOf, pitchOf]

theorem tilt_spec (a : V3) : unitOf a = ![-Real.sin (pitchOf a), Real.cos (pitchOf a) * Real.sin (rollOf a),
    Real.cos (pitchOf a) * Real.cos (rollOf a)] := by
  have h1 := unitOf_sq a
  set u := unitOf a with hu
  have hs : 0 ≤ u 1 * u 1 + u 2 * u 2 := add_nonneg (mul_self_nonneg _) (mul_self_nonneg _)
  have hn1 : ‖(⟨u 2, u 1⟩ : ℂ)‖ = Real.sqrt (u 1 * u 1 + u 2 * u 2) := by
    rw [Complex.norm_def, Complex.normSq_mk, add_comm]
  have hn2 : ‖(⟨Real.sqrt (u 1 * u 1 + u 2 * u 2), -u 0⟩ : ℂ)‖ = 1 := by
    rw [Complex.norm_def, Complex.normSq_mk, Real.mul_self_sqrt hs, Real.sqrt_eq_one]
    nlinarith
  have c1 := Complex.norm_mul_cos_arg ⟨u 2, u 1⟩
  have s1 := Complex.norm_mul_sin_arg ⟨u 2, u 1⟩
  have c2 := Complex.norm_mul_cos_arg ⟨Real.sqrt (u 1 * u 1 + u 2 * u 2), -u 0⟩
  have s2 := Complex.norm_mul_sin_arg ⟨Real.sqrt (u 1 * u 1 + u 2 * u 2), -u 0⟩
  rw [hn1] at c1 s1
  rw [hn2, one_mul] at c2 s2
  simp only at c1 s1 c2 s2
  unfold rollOf pitchOf
  rw [← hu, c2, s2, s1, c1, neg_neg]
  ext i
  fin_cases i <;> rfl

theorem rollOf_mem (a : V3) : rollOf a ∈ Set.Ioc (-Real.pi) Real.pi := Complex.arg_mem_Ioc _

theorem pitchOf_mem (a : V3) : |pitchOf a| ≤ Real.pi / 2 := Complex.abs_arg_le_pi_div_two_iff.2 (Real.sqrt_nonneg _)

/-- C95. For every nonzero accelerometer reading `zsl_att_from_accel` returns the roll `φ ∈ (-π, π]` and pitch `θ ∈ [-π/2, π/2]`
under which gravity is seen as `|a| (-sin θ, cos θ sin φ, cos θ cos φ)`, and yaw 0. -/
theorem att_from_accel_correct (junk : ℕ → XR) (a : V3) (ha : a ≠ 0) (att : Attitude XR) :
    ∃ φ θ : ℝ, attFromAccel junk (vec a []) att = ok (0, ⟨degrees φ, degrees θ, XR.fin 0⟩) ∧
      φ ∈ Set.Ioc (-Real.pi) Real.pi ∧ |θ| ≤ Real.pi / 2 ∧
      a = len a • ![-Real.sin θ, Real.cos θ * Real.sin φ, Real.cos θ * Real.cos φ] :=
  ⟨rollOf a, pitchOf a, attFromAccel_vec _ _ _, rollOf_mem a, pitchOf_mem a, by
    conv_lhs => rw [unitOf_smul ha, tilt_spec a]⟩

example : ∃ φ θ : ℝ, attFromAccel (fun _ => XR.nan) (vec ![1, 2, 3] []) ⟨XR.nan, XR.nan, XR.nan⟩ = ok (0, ⟨degrees φ, degrees θ, XR.fin 0⟩) ∧
    φ ∈ Set.Ioc (-Real.pi) Real.pi ∧ |θ| ≤ Real.pi / 2 ∧ (![1, 2, 3] : V3) = len ![1, 2, 3] • ![-Real.sin θ, Real.cos θ * Real.sin φ, Real.cos θ * Real.cos φ] :=
  att_from_accel_correct _ _ (fun h => by simpa using congrFun h 0) _

/-- C95. The result depends on the direction only. -/
theorem att_from_accel_scale (junk : ℕ → XR) (a : V3) (ha : a ≠ 0) (c : ℝ) (hc : 0 < c) (att : Attitude XR) :
    attFromAccel junk (vec (c • a) []) att = attFromAccel junk (vec a []) att := by
  have : unitOf (c • a) = unitOf a := by
    unfold unitOf
    rw [if_neg (smul_ne_zero hc.ne' ha), if_neg ha]
    ext i
    rw [smul_dotProduct, dotProduct_smul, smul_eq_mul, smul_eq_mul, ← mul_assoc, Real.sqrt_mul (mul_self_nonneg c),
      Real.sqrt_mul_self hc.le]
    have hs : Real.sqrt (a ⬝ᵥ a) ≠ 0 := (Real.sqrt_pos.2 (dotProduct_self_pos' ha)).ne'
    simp only [Pi.smul_apply, smul_eq_mul]
    field_simp
  rw [attFromAccel_vec, attFromAccel_vec]
  unfold rollOf pitchOf
  rw [this]

/-- The reading `m` seen in the frame levelled by the roll `φ` and pitch `θ`: forward and right component. -/
noncomputable def level (φ θ : ℝ) (m : V3) : ℝ × ℝ :=
  (m 0 * Real.cos θ + Real.sin θ * (m 1 * Real.sin φ + m 2 * Real.cos φ), m 1 * Real.cos φ - m 2 * Real.sin φ)

/-- The rounded conversion to degrees and back. -/
noncomputable def there (x : ℝ) : ℝ := x * 57.295779513 * 0.01745329252

/-- The yaw angle. -/
noncomputable def yawOf (a m : V3) : ℝ :=
  Complex.arg ⟨(level (there (rollOf a)) (there (pitchOf a)) (unitOf m)).1, -(level (there (rollOf a)) (there (pitchOf a)) (unitOf m)).2⟩

theorem attFromAccelmag_vec (junk : ℕ → XR) (a m : V3) (att : Attitude XR) :
    attFromAccelmag junk (vec a []) (vec m []) att = ok (0, ⟨degrees (rollOf a), degrees (pitchOf a), degrees (yawOf a m)⟩) := by
  unfold attFromAccelmag
  rw [if_neg (by simp), vecCopy_vec3, ok_bind]
  simp only
  rw [vecToUnit_vec, ok_bind]
  simp only
  rw [attFromAccel_vec, ok_bind]
  simp only
  obtain ⟨r0, r1, r2⟩ := vec3_rd (unitOf m) []
  rw [r0, r1, r2]
  simp only [ok_bind, degrees, degToRad_eq, radToDeg_eq, XR.fin_mul, XR.fin_sin, XR.fin_cos, XR.fin_add, XR.fin_sub, XR.fin_atan2]
  simp [yawOf, level, there]

/-- C95. `zsl_att_from_accelmag` returns the same roll and pitch and the yaw `ψ` for which the levelled magnetic field (up to the
rounding of the degree constants) is `h (cos ψ, -sin ψ)` with `h ≥ 0`: turning by the yaw points the nose to magnetic north. -/
theorem att_from_accelmag_correct (junk : ℕ → XR) (a m : V3) (ha : a ≠ 0) (hm : m ≠ 0) (att : Attitude XR) :
    ∃ φ θ ψ h : ℝ, attFromAccelmag junk (vec a []) (vec m []) att = ok (0, ⟨degrees φ, degrees θ, degrees ψ⟩) ∧
      φ ∈ Set.Ioc (-Real.pi) Real.pi ∧ |θ| ≤ Real.pi / 2 ∧ ψ ∈ Set.Ioc (-Real.pi) Real.pi ∧
      a = len a • ![-Real.sin θ, Real.cos θ * Real.sin φ, Real.cos θ * Real.cos φ] ∧
      0 ≤ h ∧ level (there φ) (there θ) m = (h * Real.cos ψ, -(h * Real.sin ψ)) := by
  set l := level (there (rollOf a)) (there (pitchOf a)) (unitOf m) with hl
  have c1 := Complex.norm_mul_cos_arg ⟨l.1, -l.2⟩
  have s1 := Complex.norm_mul_sin_arg ⟨l.1, -l.2⟩
  refine ⟨rollOf a, pitchOf a, yawOf a m, len m * ‖(⟨l.1, -l.2⟩ : ℂ)‖, attFromAccelmag_vec _ _ _ _, rollOf_mem a, pitchOf_mem a,
    Complex.arg_mem_Ioc _, ?_, mul_nonneg (len_nonneg _) (norm_nonneg _), ?_⟩
  · conv_lhs => rw [unitOf_smul ha, tilt_spec a]
  · simp only at c1 s1
    unfold yawOf
    rw [← hl, mul_assoc, mul_assoc, c1, s1, hl]
    have e : ∀ i, m i = len m * unitOf m i := fun i => congrFun (unitOf_smul hm) i
    unfold level
    rw [e 0, e 1, e 2]
    refine Prod.ext ?_ ?_ <;> simp only <;> ring

/-- C95. The rounding of the degree constants loses less than `1e-10` of an angle. -/
theorem there_close (x : ℝ) : |there x - x| ≤ 1e-10 * |x| := by
  unfold there
  rw [show x * 57.295779513 * 0.01745329252 - x = (57.295779513 * 0.01745329252 - 1) * x by ring, abs_mul]
  exact mul_le_mul_of_nonneg_right (by rw [abs_le]; constructor <;> norm_num) (abs_nonneg _)

/-- C95. Converting an attitude to Euler angles and back changes each angle by less than `1e-10` of its value, and the other way round. -/
theorem att_euler_round_trip (x y z : ℝ) :
    attFromEuler (attToEuler (⟨XR.fin x, XR.fin y, XR.fin z⟩ : Attitude XR)) = ⟨XR.fin (there x), XR.fin (there y), XR.fin (there z)⟩ ∧
    attToEuler (attFromEuler (⟨XR.fin x, XR.fin y, XR.fin z⟩ : Euler XR)) = ⟨XR.fin (there x), XR.fin (there y), XR.fin (there z)⟩ := by
  constructor
  · simp only [attFromEuler, attToEuler, radToDeg_eq, degToRad_eq, XR.fin_mul, there]
    rw [mul_right_comm x, mul_right_comm y, mul_right_comm z]
  · simp only [attFromEuler, attToEuler, radToDeg_eq, degToRad_eq, XR.fin_mul, there]

/-- C95. A reading that is not three-dimensional is rejected, for every scalar type, and the output is left alone. -/
theorem att_rejects {R : Type} [CReal R] (junk : ℕ → R) (a m : Vec R) (att : Attitude R) (b : R) :
    (a.sz ≠ 3 → attFromAccel junk a att = ok (-EINVAL, att)) ∧
    (a.sz ≠ 3 ∨ m.sz ≠ 3 → attFromAccelmag junk a m att = ok (-EINVAL, att) ∧ attAccelAngle junk a m b = ok (-EINVAL, b)) := by
  refine ⟨fun h => ?_, fun h => ⟨?_, ?_⟩⟩
  · unfold attFromAccel; rw [if_pos h]
  · unfold attFromAccelmag; rw [if_pos h]
  · unfold attAccelAngle; rw [if_pos h]

theorem dot_sq_le (a b : V3) : (a ⬝ᵥ b) ^ 2 ≤ (a ⬝ᵥ a) * (b ⬝ᵥ b) := by
  have := Finset.sum_mul_sq_le_sq_mul_sq Finset.univ a b
  simpa [dotProduct, pow_two] using this

/-- C95. `zsl_att_accel_angle` of two nonzero readings is the angle between them: in `[0, π]`, with `a·b = |a||b| cos`. -/
theorem att_accel_angle_correct (junk : ℕ → XR) (a b : V3) (ha : a ≠ 0) (hb : b ≠ 0) (x : XR) :
    ∃ t : ℝ, attAccelAngle junk (vec a []) (vec b []) x = ok (0, XR.fin t) ∧ 0 ≤ t ∧ t ≤ Real.pi ∧
      a ⬝ᵥ b = len a * len b * Real.cos t := by
  have pa := Real.sqrt_pos.2 (dotProduct_self_pos' ha)
  have pb := Real.sqrt_pos.2 (dotProduct_self_pos' hb)
  have hne : len a * len b ≠ 0 := mul_ne_zero pa.ne' pb.ne'
  have hpos : 0 < len a * len b := mul_pos pa pb
  have hI : (a ⬝ᵥ b) / (len a * len b) ∈ Set.Icc (-1 : ℝ) 1 := by
    rw [Set.mem_Icc, ← abs_le, abs_div, abs_of_pos hpos, div_le_one hpos]
    apply abs_le_of_sq_le_sq _ hpos.le
    rw [mul_pow]
    unfold len
    rw [Real.sq_sqrt (dotProduct_self_pos' ha).le, Real.sq_sqrt (dotProduct_self_pos' hb).le]
    exact dot_sq_le a b
  refine ⟨Real.arccos ((a ⬝ᵥ b) / (len a * len b)), ?_, Real.arccos_nonneg _, Real.arccos_le_pi _, ?_⟩
  · unfold attAccelAngle
    rw [if_neg (by simp), vecNorm_len, ok_bind, vecNorm_len, ok_bind, vecDot_vec, ok_bind]
    simp only
    rw [XR.fin_mul, XR.fin_div hne, XR.fin_acos hI]
    rfl
  · rw [Real.cos_arccos hI.1 hI.2, mul_div_cancel₀ _ hne]

example : ∃ t : ℝ, attAccelAngle (fun _ => XR.nan) (vec ![1, 2, 3] []) (vec ![0, 1, 0] []) XR.nan = ok (0, XR.fin t) ∧ 0 ≤ t ∧ t ≤ Real.pi ∧
    (![1, 2, 3] : V3) ⬝ᵥ ![0, 1, 0] = len ![1, 2, 3] * len ![0, 1, 0] * Real.cos t :=
  att_accel_angle_correct _ _ _ (fun h => by simpa using congrFun h 0) (fun h => by simpa using congrFun h 1) _

/-- C95. With a zero reading the angle is NaN, with code 0. -/
theorem att_accel_angle_zero (junk : ℕ → XR) (b : V3) (x : XR) :
    attAccelAngle junk (vec (0 : V3) []) (vec b []) x = ok (0, XR.nan) := by
  unfold attAccelAngle
  rw [if_neg (by simp), vecNorm_len, ok_bind, vecNorm_len, ok_bind, vecDot_vec, ok_bind]
  simp only
  rw [XR.fin_mul, show len 0 = 0 by simp [len], zero_mul, zero_dotProduct, XR.fin_div_zero]
  simp [XR.infOf]
  rfl

/-! ### Compass -/

/-- The factor from radians to degrees the compass functions use. -/
noncomputable def compDeg (x : ℝ) : ℝ := x * 180 / 3.14159265359

/-- The direction of the heading `d` (degrees, with the library's value of π): `(cos d, sin d)`, written with the complementary angle. -/
noncomputable def bearing (d : ℝ) : ℝ × ℝ :=
  (Real.sin ((90 - d) * 3.14159265359 / 180), Real.cos ((90 - d) * 3.14159265359 / 180))

theorem lit_pi : (zslPi : XR) = XR.fin 3.14159265359 := by
  unfold zslPi; rw [XR.lit_eq]; norm_num

theorem compMagnNorth_pos (m : V3) (h : 1e-6 ≤ m 1) (d : XR) :
    compMagnNorth (vec m []) d = ok (0, XR.fin (90 - compDeg (Complex.arg ⟨m 1, m 0⟩))) := by
  have hp : 0 < m 1 := lt_of_lt_of_le (by norm_num) h
  unfold compMagnNorth
  obtain ⟨r0, r1, r2⟩ := vec3_rd m []
  rw [if_neg (by simp), r1, ok_bind, XR.fin_abs, lit_micro, if_neg (by rw [XR.fin_lt, abs_of_pos hp]; exact not_lt.2 h),
    if_pos (by simpa using hp), r0, ok_bind, lit_pi]
  simp only [XR.fin_atan2, XR.lit_eq, XR.fin_mul]
  rw [XR.fin_div (by norm_num), XR.fin_sub]
  simp [compDeg]

theorem compMagnNorth_neg (m : V3) (h : m 1 ≤ -1e-6) (d : XR) :
    compMagnNorth (vec m []) d = ok (0, XR.fin (270 - compDeg (Complex.arg ⟨m 1, m 0⟩))) := by
  have hp : m 1 < 0 := lt_of_le_of_lt h (by norm_num)
  unfold compMagnNorth
  obtain ⟨r0, r1, r2⟩ := vec3_rd m []
  rw [if_neg (by simp), r1, ok_bind, XR.fin_abs, lit_micro, if_neg (by rw [XR.fin_lt, abs_of_neg hp]; linarith),
    if_neg (by simpa using hp.le), if_pos (by simpa using hp), r0, ok_bind, lit_pi]
  simp only [XR.fin_atan2, XR.lit_eq, XR.fin_mul]
  rw [XR.fin_div (by norm_num), XR.fin_sub]
  simp [compDeg]

/-- C96. For a field with a positive y component the heading is the direction of its horizontal part, strictly between 0 and 180
degrees. Missing for the full claim: a negative y component, for which it fails (`comp_magn_north_opposite`). -/
theorem comp_magn_north_partial (m : V3) (h : 1e-6 ≤ m 1) (d : XR) :
    ∃ x r : ℝ, compMagnNorth (vec m []) d = ok (0, XR.fin x) ∧ -1e-6 < x ∧ x < 180 + 1e-6 ∧ 0 < r ∧ m 0 = r * (bearing x).1 ∧ m 1 = r * (bearing x).2 := by
  have hp : 0 < m 1 := lt_of_lt_of_le (by norm_num) h
  have h1 := Real.pi_gt_d20
  have h2 := Real.pi_lt_d20
  have hz : (⟨m 1, m 0⟩ : ℂ) ≠ 0 := fun hc => hp.ne' (congrArg Complex.re hc)
  have hb := abs_le.1 (Complex.abs_arg_le_pi_div_two_iff.2 (show 0 ≤ (⟨m 1, m 0⟩ : ℂ).re from hp.le))
  have e : (90 - (90 - compDeg (Complex.arg ⟨m 1, m 0⟩))) * 3.14159265359 / 180 = Complex.arg ⟨m 1, m 0⟩ := by
    unfold compDeg; ring
  refine ⟨_, ‖(⟨m 1, m 0⟩ : ℂ)‖, compMagnNorth_pos m h d, ?_, ?_, norm_pos_iff.2 hz, ?_, ?_⟩
  · have : compDeg (Complex.arg ⟨m 1, m 0⟩) < 90 + 1e-6 := by
      unfold compDeg; rw [div_lt_iff₀ (by norm_num)]; nlinarith [hb.2]
    linarith
  · have : -(90 + 1e-6) < compDeg (Complex.arg ⟨m 1, m 0⟩) := by
      unfold compDeg; rw [lt_div_iff₀ (by norm_num)]; nlinarith [hb.1]
    linarith
  · unfold bearing; rw [e]; exact (Complex.norm_mul_sin_arg ⟨m 1, m 0⟩).symm
  · unfold bearing; rw [e]; exact (Complex.norm_mul_cos_arg ⟨m 1, m 0⟩).symm

example : ∃ x r : ℝ, compMagnNorth (vec ![3, 4, 5] []) XR.nan = ok (0, XR.fin x) ∧ -1e-6 < x ∧ x < 180 + 1e-6 ∧ 0 < r ∧
    (![3, 4, 5] : V3) 0 = r * (bearing x).1 ∧ (![3, 4, 5] : V3) 1 = r * (bearing x).2 :=
  comp_magn_north_partial _ (by simp; norm_num) _

/-- C96. The claim fails for every field with a negative y component: up to whole turns and `1e-8` degrees of rounding, the heading is
the one reported for exactly the opposite field. -/
theorem comp_magn_north_opposite (m : V3) (h : m 1 ≤ -1e-6) (d : XR) :
    ∃ x y : ℝ, compMagnNorth (vec m []) d = ok (0, XR.fin x) ∧ compMagnNorth (vec (-m) []) d = ok (0, XR.fin y) ∧
      (|x - y| ≤ 1e-8 ∨ |x - y - 360| ≤ 1e-8) := by
  have hp : m 1 < 0 := lt_of_le_of_lt h (by norm_num)
  have h1 := Real.pi_gt_d20
  have h2 := Real.pi_lt_d20
  refine ⟨_, _, compMagnNorth_neg m h d, compMagnNorth_pos (-m) (by simp only [Pi.neg_apply]; linarith) d, ?_⟩
  have hneg : (⟨(-m) 1, (-m) 0⟩ : ℂ) = -⟨m 1, m 0⟩ := by apply Complex.ext <;> simp
  rw [hneg]
  rcases lt_trichotomy (m 0) 0 with h0 | h0 | h0
  · right
    rw [Complex.arg_neg_eq_arg_add_pi_of_im_neg (by simpa using h0)]
    unfold compDeg
    rw [abs_le]
    constructor <;> ring_nf <;> linarith
  · left
    have hz : (⟨m 1, m 0⟩ : ℂ) = ((m 1 : ℝ) : ℂ) := by apply Complex.ext <;> simp [h0]
    have hz' : -(⟨m 1, m 0⟩ : ℂ) = ((-m 1 : ℝ) : ℂ) := by rw [hz]; push_cast; rfl
    rw [hz', hz, Complex.arg_ofReal_of_neg hp, Complex.arg_ofReal_of_nonneg (by linarith)]
    unfold compDeg
    rw [abs_le]
    constructor <;> ring_nf <;> linarith
  · left
    rw [Complex.arg_neg_eq_arg_sub_pi_of_im_pos (by simpa using h0)]
    unfold compDeg
    rw [abs_le]
    constructor <;> ring_nf <;> linarith

/-- C96. A field whose y component is below `1e-6` is reported as 0 or 180 degrees, by the sign of its x component. -/
theorem comp_magn_north_axis (m : V3) (h : |m 1| < 1e-6) (d : XR) :
    compMagnNorth (vec m []) d = ok (0, XR.fin (if 0 < m 0 then 0 else 180)) := by
  unfold compMagnNorth
  obtain ⟨r0, r1, r2⟩ := vec3_rd m []
  rw [if_neg (by simp), r1, ok_bind, XR.fin_abs, lit_micro, if_pos (by rwa [XR.fin_lt]), r0, ok_bind]
  by_cases h0 : 0 < m 0
  · rw [if_pos (by simpa using h0), if_pos h0]; simp
  · rw [if_neg (by simpa using h0), if_neg h0]; simp

/-- C96. Geographic north is magnetic north plus the declination; a field that is not three-dimensional is rejected by both, for every
scalar type. -/
theorem comp_geo_north_correct {R : Type} [CReal R] (m : Vec R) (dec d : R) :
    (m.sz ≠ 3 → compMagnNorth m d = ok (-EINVAL, d) ∧ compGeoNorth m dec d = ok (-EINVAL, d)) ∧
    (m.sz = 3 → ∀ x, compMagnNorth m d = ok (0, x) → compGeoNorth m dec d = ok (0, x + dec)) := by
  refine ⟨fun h => ⟨?_, ?_⟩, fun h x hx => ?_⟩
  · unfold compMagnNorth; rw [if_pos h]
  · unfold compGeoNorth; rw [if_pos h]
  · unfold compGeoNorth
    rw [if_neg (by simpa using h), hx]
    rfl

/-- C97. `zsl_comp_dms_to_dd` accepts exactly degrees in `[-180, 180]` with minutes and seconds in `[0, 60]`, and adds them away from zero;
everything else gives `-EINVAL` and 0. -/
theorem comp_dms_to_dd_correct (d m s : ℝ) :
    compDmsToDd (XR.fin d) (XR.fin m) (XR.fin s) =
      if (0 ≤ m ∧ m ≤ 60) ∧ (0 ≤ s ∧ s ≤ 60) ∧ -180 ≤ d ∧ d ≤ 180 then
        (0, XR.fin ((if d < 0 then -1 else 1) * (|d| + m / 60 + s / 3600)))
      else (-EINVAL, XR.fin 0) := by
  unfold compDmsToDd
  simp only [XR.lit_eq, XR.fin_div (show (((60 : ℚ)) : ℝ) ≠ 0 by norm_num), XR.fin_div (show (((3600 : ℚ)) : ℝ) ≠ 0 by norm_num),
    XR.fin_sub, XR.fin_add]
  simp only [Bool.or_eq_true, XR.fin_lt, XR.fin_gt, Rat.cast_ofNat, Rat.cast_zero, Rat.cast_neg]
  by_cases hm : 0 ≤ m ∧ m ≤ 60
  · rw [if_neg (by push Not; exact hm)]
    by_cases hs : 0 ≤ s ∧ s ≤ 60
    · rw [if_neg (by push Not; exact hs)]
      by_cases hd : -180 ≤ d ∧ d ≤ 180
      · rw [if_neg (by push Not; exact hd)]
        refine Eq.trans ?_ (if_pos ⟨hm, hs, hd⟩).symm
        by_cases h0 : d < 0
        · rw [if_pos h0, if_pos h0, abs_of_neg h0]; congr 2; ring
        · rw [if_neg h0, if_neg h0, abs_of_nonneg (not_lt.1 h0), one_mul]
      · rw [if_pos (by by_contra hc; push Not at hc; exact hd hc), if_neg (fun h => hd h.2.2)]
    · rw [if_pos (by by_contra hc; push Not at hc; exact hs hc), if_neg (fun h => hs h.2.1)]
  · rw [if_pos (by by_contra hc; push Not at hc; exact hm hc), if_neg (fun h => hm h.1)]

/-- The international gravity formula with the free-air correction. -/
noncomputable def gravity (lat alt : ℝ) : ℝ :=
  9.780318 * (1 + 0.0053024 * Real.sin (lat * (3.14159265359 / 180)) ^ 2 - 0.0000058 * Real.sin (2 * lat * (3.14159265359 / 180)) ^ 2)
    - 0.000003085 * alt

/-- C97. `zsl_grav_lat_alt` accepts exactly latitudes in `[-90, 90]` with altitudes of at least 0 and returns the gravity formula. -/
theorem grav_lat_alt_correct (lat alt : ℝ) :
    gravLatAlt (XR.fin lat) (XR.fin alt) =
      if 0 ≤ alt ∧ -90 ≤ lat ∧ lat ≤ 90 then (0, XR.fin (gravity lat alt)) else (-EINVAL, XR.nan) := by
  unfold gravLatAlt
  by_cases h : 0 ≤ alt ∧ -90 ≤ lat ∧ lat ≤ 90
  · rw [if_neg (by simp [h.1, h.2.1, h.2.2]), if_pos h]
    simp only [lit_pi, XR.lit_eq, XR.fin_div (show (((180 : ℚ)) : ℝ) ≠ 0 by norm_num), XR.fin_mul, XR.fin_sin, XR.fin_add, XR.fin_sub]
    congr 2
    unfold gravity
    push_cast
    norm_num
    ring
  · rw [if_pos (by
      simp only [Bool.or_eq_true, XR.lit_eq, XR.fin_lt, XR.fin_gt]
      push_cast
      by_contra hc
      push Not at hc
      exact h ⟨hc.1.1, hc.2, hc.1.2⟩), if_neg h]
    rfl

/-- C97. It is symmetric in the latitude, falls strictly with the altitude, and at sea level lies between 9.78 and 9.84. -/
theorem gravity_laws (lat alt alt' : ℝ) :
    gravity (-lat) alt = gravity lat alt ∧ (alt < alt' → gravity lat alt' < gravity lat alt) ∧ 9.78 ≤ gravity lat 0 ∧ gravity lat 0 ≤ 9.84 := by
  have h1 := Real.sin_sq_le_one (lat * (3.14159265359 / 180))
  have h2 := Real.sin_sq_le_one (2 * lat * (3.14159265359 / 180))
  have h3 := sq_nonneg (Real.sin (lat * (3.14159265359 / 180)))
  have h4 := sq_nonneg (Real.sin (2 * lat * (3.14159265359 / 180)))
  refine ⟨?_, ?_, ?_, ?_⟩
  · unfold gravity
    rw [show -lat * (3.14159265359 / 180) = -(lat * (3.14159265359 / 180)) by ring,
      show 2 * -lat * (3.14159265359 / 180) = -(2 * lat * (3.14159265359 / 180)) by ring, Real.sin_neg, Real.sin_neg, neg_sq, neg_sq]
  · intro h; unfold gravity; linarith
  · unfold gravity; nlinarith
  · unfold gravity; nlinarith

end Verif
