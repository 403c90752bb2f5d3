import Verif.Lemmas.Physics

/-!
# Physics helpers whose domain check is incomplete, or whose formula is wrong

For each helper: what it computes on the documented domain (`_partial`), and a witness for the inputs it should reject and does not.
-/

namespace Verif

open Out Phys

/-! ### gravitation.c: only a zero denominator is rejected -/

/-- C79. `zsl_phy_grav_orb_period`: Kepler's third law, for a positive total mass and a non-negative axis. Missing: negative masses
and axes are not rejected (`phy_grav_orb_period_negative`). -/
theorem phy_grav_orb_period_partial (m₁ m₂ r : ℝ) (hm : 0 ≤ m₁ + m₂) (hr : 0 ≤ r) :
    Guarded (m₁ + m₂ = 0) (2 * π' * Real.sqrt (r ^ 3 / (G * (m₁ + m₂))))
      (phyGravOrbPeriod (XR.fin m₁) (XR.fin m₂) (XR.fin r)) := by
  phys_unfold phyGravOrbPeriod
  refine guarded_of (by simp) fun hb => ?_
  have h0 : 0 < m₁ + m₂ := lt_of_le_of_ne hm (Ne.symm hb)
  rw [XR.fin_div (by positivity), XR.fin_sqrt (by positivity), XR.fin_inj,
    show 4 * π' * π' * r * r * r / (G * (m₁ + m₂)) = (2 * π') ^ 2 * (r ^ 3 / (G * (m₁ + m₂))) by ring,
    Real.sqrt_mul (by positivity), Real.sqrt_sq (by positivity)]

/-- C79, refuted: a negative axis passes the check; the code is 0 and the output NaN. -/
theorem phy_grav_orb_period_negative (m₁ m₂ r : ℝ) (hm : 0 < m₁ + m₂) (hr : r < 0) :
    phyGravOrbPeriod (XR.fin m₁) (XR.fin m₂) (XR.fin r) = (0, XR.nan) := by
  phys_unfold phyGravOrbPeriod
  rw [if_neg (by simp [hm.ne']), XR.fin_div (by positivity), XR.fin_sqrt_neg]
  refine div_neg_of_neg_of_pos ?_ (by positivity)
  have : 0 < r * r := mul_pos_of_neg_of_neg hr hr
  nlinarith [mul_pos (mul_pos (mul_pos four_pos π'_pos) π'_pos) this]

example : phyGravOrbPeriod (XR.fin 5) (XR.fin 1) (XR.fin (-2)) = (0, XR.nan) :=
  phy_grav_orb_period_negative 5 1 (-2) (by norm_num) (by norm_num)

/-- C79. `zsl_phy_grav_esc_vel`: escape velocity, for a non-negative mass and radius. Missing: negative ones. -/
theorem phy_grav_esc_vel_partial (m r : ℝ) (hm : 0 ≤ m) (hr : 0 ≤ r) :
    Guarded (r = 0) (Real.sqrt (2 * G * m / r)) (phyGravEscVel (XR.fin m) (XR.fin r)) := by
  phys_unfold phyGravEscVel
  refine guarded_of (by simp) fun hb => ?_
  rw [XR.fin_div hb, XR.fin_sqrt (by positivity)]

/-- C79, refuted: a negative radius passes the check. -/
theorem phy_grav_esc_vel_negative (m r : ℝ) (hm : 0 < m) (hr : r < 0) :
    phyGravEscVel (XR.fin m) (XR.fin r) = (0, XR.nan) := by
  phys_unfold phyGravEscVel
  rw [if_neg (by simp [hr.ne]), XR.fin_div hr.ne, XR.fin_sqrt_neg (div_neg_of_pos_of_neg (by positivity) hr)]

/-- C79. `zsl_phy_grav_orb_vel`: speed on a circular orbit, for a non-negative mass and radius. Missing: negative ones. -/
theorem phy_grav_orb_vel_partial (m r : ℝ) (hm : 0 ≤ m) (hr : 0 ≤ r) :
    Guarded (r = 0) (Real.sqrt (G * m / r)) (phyGravOrbVel (XR.fin m) (XR.fin r)) := by
  phys_unfold phyGravOrbVel
  refine guarded_of (by simp) fun hb => ?_
  rw [XR.fin_div hb, XR.fin_sqrt (by positivity)]

/-- C79, refuted: a negative radius passes the check. -/
theorem phy_grav_orb_vel_negative (m r : ℝ) (hm : 0 < m) (hr : r < 0) :
    phyGravOrbVel (XR.fin m) (XR.fin r) = (0, XR.nan) := by
  phys_unfold phyGravOrbVel
  rw [if_neg (by simp [hr.ne]), XR.fin_div hr.ne, XR.fin_sqrt_neg (div_neg_of_pos_of_neg (by positivity) hr)]

example : phyGravEscVel (XR.fin 5) (XR.fin (-2)) = (0, XR.nan) ∧ phyGravOrbVel (XR.fin 5) (XR.fin (-2)) = (0, XR.nan) :=
  ⟨phy_grav_esc_vel_negative 5 (-2) (by norm_num) (by norm_num), phy_grav_orb_vel_negative 5 (-2) (by norm_num) (by norm_num)⟩

/-! ### optics.c: the refractive index is inverted -/

/-- C79. What `zsl_phy_opt_refrac_index` computes: `v / c`. -/
theorem phy_opt_refrac_index_computes (v : ℝ) :
    Guarded (v < 0 ∨ c < v) (v / c) (phyOptRefracIndex (XR.fin v)) := by
  phys phyOptRefracIndex

/-- C79, refuted: the refractive index of a medium is `c / v`, at least 1; `zsl_phy_opt_refrac_index` returns its reciprocal: it is
right only in vacuum. -/
theorem phy_opt_refrac_index_wrong (v : ℝ) (h0 : 0 < v) (hv : v ≤ c) :
    phyOptRefracIndex (XR.fin v) = (0, XR.fin (c / v)) ↔ v = c := by
  rcases phy_opt_refrac_index_computes v with ⟨h, -⟩ | ⟨-, h⟩
  · rcases h with h | h <;> linarith
  · rw [h, Prod.mk.injEq, XR.fin_inj]
    have hc := c_pos
    constructor
    · rintro ⟨-, e⟩
      rw [div_eq_div_iff hc.ne' h0.ne'] at e
      nlinarith
    · rintro rfl; exact ⟨rfl, rfl⟩

example : phyOptRefracIndex (XR.fin (c / 2)) ≠ (0, XR.fin (c / (c / 2))) := by
  intro h
  have := (phy_opt_refrac_index_wrong (c / 2) (by have := c_pos; positivity) (by linarith [c_pos])).1 h
  linarith [c_pos]

/-! ### sound.c -/

/-- C79. `zsl_phy_sound_level` for positive intensities. Missing: a zero intensity is not rejected. -/
theorem phy_sound_level_partial (i i₀ : ℝ) (h : 0 < i ∨ i < 0) (h₀ : 0 < i₀ ∨ i₀ < 0) :
    Guarded (i < 0 ∨ i₀ < 0) (10 * Real.logb 10 (i / i₀)) (phySoundLevel (XR.fin i) (XR.fin i₀)) := by
  phys_unfold phySoundLevel
  refine guarded_of (by simp) fun hb => ?_
  have hi : 0 < i := h.resolve_right fun e => hb (Or.inl e)
  have hi₀ : 0 < i₀ := h₀.resolve_right fun e => hb (Or.inr e)
  rw [XR.fin_div hi₀.ne', XR.fin_log10 (by positivity), XR.fin_mul]

/-- C79, refuted: a zero reference intensity gives code 0 and NaN for a zero intensity, infinity for any other. -/
theorem phy_sound_level_zero_reference (i : ℝ) (hi : 0 ≤ i) :
    phySoundLevel (XR.fin i) (XR.fin 0) = (0, if i = 0 then XR.nan else XR.pinf) := by
  phys_unfold phySoundLevel
  rw [if_neg (by simp [hi]), XR.fin_div_zero]
  by_cases h : i = 0
  · subst h
    simp [XR.infOf, CReal.log10, XR.logk, HMul.hMul, Mul.mul, XR.mul]
  · have : 0 < i := lt_of_le_of_ne hi (Ne.symm h)
    rw [if_neg h]
    simp [XR.infOf, this, CReal.log10, XR.logk, HMul.hMul, Mul.mul, XR.mul]

/-- C79. `zsl_phy_sound_intensity` for a positive bulk modulus: `p² / (2 √(b d))`. Missing: `b = 0` is not rejected. -/
theorem phy_sound_intensity_partial (b d p : ℝ) (hb0 : b ≠ 0) :
    Guarded (b < 0 ∨ d ≤ 0 ∨ p < 0) (p ^ 2 / (2 * Real.sqrt (b * d)))
      (phySoundIntensity (XR.fin b) (XR.fin d) (XR.fin p)) := by
  phys_unfold phySoundIntensity
  refine guarded_of (by simp [or_assoc]) fun hb => ?_
  rw [not_or, not_or, not_lt, not_le, not_lt] at hb
  obtain ⟨h1, h2, h3⟩ := hb
  have h1 : 0 < b := lt_of_le_of_ne h1 hb0.symm
  rw [XR.fin_div h2.ne', XR.fin_sqrt (by positivity), XR.fin_mul, XR.fin_div (by positivity), XR.fin_inj,
    Real.sqrt_div h1.le, Real.sqrt_mul h1.le]
  have hs := Real.sqrt_pos.2 h1
  have hd := Real.sqrt_pos.2 h2
  rw [div_eq_div_iff (by positivity) (by positivity)]
  field_simp
  rw [Real.sq_sqrt h1.le]

/-- C79, refuted: a zero bulk modulus gives code 0 and NaN. -/
theorem phy_sound_intensity_zero_modulus (d p : ℝ) (hd : 0 < d) (hp : 0 ≤ p) :
    phySoundIntensity (XR.fin 0) (XR.fin d) (XR.fin p) = (0, XR.nan) := by
  phys_unfold phySoundIntensity
  rw [if_neg (by simp [hd, hp]), XR.fin_div hd.ne', zero_div, XR.fin_sqrt le_rfl, Real.sqrt_zero, XR.fin_mul, mul_zero, mul_zero,
    XR.fin_div_zero]
  simp [XR.infOf]

example : phySoundIntensity (XR.fin 0) (XR.fin 1) (XR.fin 2) = (0, XR.nan) :=
  phy_sound_intensity_zero_modulus 1 2 (by norm_num) (by norm_num)

/-- C79. `zsl_phy_sound_shock_wave_angle` (`sin θ = v / vs`) for a supersonic source. Missing: slower sources are not rejected. -/
theorem phy_sound_shock_wave_angle_partial (v vs : ℝ) (h : |v| ≤ |vs|) (h0 : vs ≠ 0) :
    ∃ θ : ℝ, phySoundShockWaveAngle (XR.fin v) (XR.fin vs) = (0, XR.fin θ) ∧ Real.sin θ = v / vs ∧
      θ ∈ Set.Icc (-(Real.pi / 2)) (Real.pi / 2) := by
  have hm : v / vs ∈ Set.Icc (-1 : ℝ) 1 := by
    rw [Set.mem_Icc, ← abs_le, abs_div]; exact (div_le_one (abs_pos.2 h0)).2 h
  refine ⟨Real.arcsin (v / vs), ?_, Real.sin_arcsin hm.1 hm.2, Real.arcsin_mem_Icc _⟩
  unfold phySoundShockWaveAngle
  rw [XR.fin_div h0, XR.fin_asin hm]

/-- C79, refuted: a source slower than sound gives code 0 and NaN. -/
theorem phy_sound_shock_wave_angle_subsonic (v vs : ℝ) (h : |vs| < |v|) (h0 : vs ≠ 0) :
    phySoundShockWaveAngle (XR.fin v) (XR.fin vs) = (0, XR.nan) := by
  unfold phySoundShockWaveAngle
  rw [XR.fin_div h0]
  have hm : ¬(v / vs ∈ Set.Icc (-1 : ℝ) 1) := by
    rw [Set.mem_Icc, ← abs_le, abs_div, div_le_one (abs_pos.2 h0)]; exact not_le.2 h
  show (0, XR.liftOn _ _ _) = _
  rw [XR.liftOn, if_neg hm]

example : phySoundShockWaveAngle (XR.fin 340) (XR.fin 300) = (0, XR.nan) :=
  phy_sound_shock_wave_angle_subsonic 340 300 (by norm_num) (by norm_num)

/-! ### atomic.c: orbit number 0 -/

/-- C79. `zsl_phy_atom_bohr_orb_vel` (kilometres per second) for an orbit number other than 0. -/
theorem phy_atom_bohr_orb_vel_partial (z n : ℕ) (hn : n ≠ 0) :
    Guarded (z = 0) (z * k * e ^ 2 / (n * hbar) / 1000) (phyAtomBohrOrbVel z n) := by
  phys_unfold phyAtomBohrOrbVel
  refine guarded_of (by simp) fun hb => ?_
  rw [XR.fin_div (by positivity), XR.fin_inj]
  ring

/-- C79, refuted: orbit number 0 gives code 0 and an infinite speed. -/
theorem phy_atom_bohr_orb_vel_zero (z : ℕ) (hz : z ≠ 0) : phyAtomBohrOrbVel z 0 = (0, XR.pinf) := by
  phys_unfold phyAtomBohrOrbVel
  have h : (0 : ℝ) < z * k * e * e * 1e-3 := by positivity
  rw [if_neg (by simp [hz]), Nat.cast_zero, zero_mul, XR.fin_div_zero, XR.infOf, if_pos h]

/-- C79. `zsl_phy_atom_bohr_orb_ener` (electronvolts) for an orbit number other than 0. -/
theorem phy_atom_bohr_orb_ener_partial (z n : ℕ) (hn : n ≠ 0) :
    Guarded (z = 0) (-(me * (z * k * e ^ 2 / (n * hbar)) ^ 2 / 2) / e) (phyAtomBohrOrbEner z n) := by
  phys_unfold phyAtomBohrOrbEner
  refine guarded_of (by simp) fun hb => ?_
  have h2 := XR.fin_pow_nat ((z : ℝ) * k * e * e / (n * hbar)) 2
  rw [Nat.cast_ofNat] at h2
  rw [XR.fin_div (by positivity), h2, XR.fin_mul, XR.fin_mul, XR.fin_neg, XR.fin_div e_pos.ne', XR.fin_inj]
  ring

example : phyAtomBohrOrbVel (R := XR) 1 0 = (0, XR.pinf) := phy_atom_bohr_orb_vel_zero 1 one_ne_zero

end Verif
