import Verif.Lemmas.Physics

/-!
# Physics helpers compute their formulas, part 2

Each theorem covers every finite input: outside the stated domain the helper returns `-EINVAL` and NaN, inside it returns 0 and the
value of the textbook formula, which therefore is a finite number (no division by zero, no root of a negative number).
-/

namespace Verif

open Out Phys

/-! ### gravitation.c -/

/-- C79. `zsl_phy_grav_acc`: gravitational acceleration. -/
theorem phy_grav_acc_correct (m r : ℝ) :
    Guarded (r = 0) (-(G * m / r ^ 2)) (phyGravAcc (XR.fin m) (XR.fin r)) := by
  phys phyGravAcc

/-- C79. `zsl_phy_grav_force`: gravitational force. -/
theorem phy_grav_force_correct (m₁ m₂ r : ℝ) :
    Guarded (r = 0) (-(G * m₁ * m₂ / r ^ 2)) (phyGravForce (XR.fin m₁) (XR.fin m₂) (XR.fin r)) := by
  phys phyGravForce

/-- C79. `zsl_phy_grav_pot_ener`: gravitational energy (kilojoules). -/
theorem phy_grav_pot_ener_correct (m₁ m₂ r : ℝ) :
    Guarded (r = 0) (-(G * m₁ * m₂ / r) / 1000) (phyGravPotEner (XR.fin m₁) (XR.fin m₂) (XR.fin r)) := by
  phys phyGravPotEner

/-! ### kinematics.c -/

/-- C79. `zsl_phy_kin_dist`: distance under constant acceleration. -/
theorem phy_kin_dist_correct (v₀ t a : ℝ) :
    Guarded (t < 0) (v₀ * t + a * t ^ 2 / 2) (phyKinDist (XR.fin v₀) (XR.fin t) (XR.fin a)) := by
  phys phyKinDist

/-- C79. `zsl_phy_kin_init_pos`: initial position. -/
theorem phy_kin_init_pos_correct (v₀ t a x : ℝ) :
    Guarded (t < 0) (x - (v₀ * t + a * t ^ 2 / 2)) (phyKinInitPos (XR.fin v₀) (XR.fin t) (XR.fin a) (XR.fin x)) := by
  phys_unfold phyKinInitPos
  refine guarded_of (by simp) fun hb => ?_
  rcases phy_kin_dist_correct v₀ t a with ⟨h, -⟩ | ⟨-, h⟩
  · exact absurd h hb
  · rw [h, XR.fin_sub]

/-- C79. `zsl_phy_kin_init_pos2`: initial position. -/
theorem phy_kin_init_pos2_correct (v₀ v a x : ℝ) :
    Guarded (a = 0) (x - (v ^ 2 - v₀ ^ 2) / (2 * a)) (phyKinInitPos2 (XR.fin v₀) (XR.fin v) (XR.fin a) (XR.fin x)) := by
  phys phyKinInitPos2

/-- C79. `zsl_phy_kin_time`: time between two velocities. -/
theorem phy_kin_time_correct (v₀ v a : ℝ) :
    Guarded (a = 0 ∨ (v - v₀) / a < 0) ((v - v₀) / a) (phyKinTime (XR.fin v₀) (XR.fin v) (XR.fin a)) := by
  phys_unfold phyKinTime
  by_cases ha : a = 0
  · left
    refine ⟨Or.inl ha, if_pos ?_⟩
    rw [Bool.or_eq_true]; exact Or.inr ((XR.fin_eq _ _).2 ha)
  · rw [XR.fin_div ha]
    refine guarded_of ?_ fun _ => rfl
    rw [Bool.or_eq_true, XR.fin_lt, XR.fin_eq, or_comm]

/-- C79. `zsl_phy_kin_vel`: final velocity. -/
theorem phy_kin_vel_correct (v₀ t a : ℝ) :
    Guarded (t < 0) (v₀ + a * t) (phyKinVel (XR.fin v₀) (XR.fin t) (XR.fin a)) := by
  phys phyKinVel

/-- C79. `zsl_phy_kin_vel2`: final speed. -/
theorem phy_kin_vel2_correct (v₀ x a : ℝ) :
    Guarded (v₀ ^ 2 + 2 * a * x < 0) (Real.sqrt (v₀ ^ 2 + 2 * a * x)) (phyKinVel2 (XR.fin v₀) (XR.fin x) (XR.fin a)) := by
  phys phyKinVel2

/-- C79. `zsl_phy_kin_init_vel`: initial velocity. -/
theorem phy_kin_init_vel_correct (v a t : ℝ) :
    Guarded (t < 0) (v - a * t) (phyKinInitVel (XR.fin v) (XR.fin a) (XR.fin t)) := by
  phys phyKinInitVel

/-- C79. `zsl_phy_kin_init_vel2`: initial velocity. -/
theorem phy_kin_init_vel2_correct (x a t : ℝ) :
    Guarded (t ≤ 0) ((x - a * t ^ 2 / 2) / t) (phyKinInitVel2 (XR.fin x) (XR.fin a) (XR.fin t)) := by
  phys phyKinInitVel2

/-- C79. `zsl_phy_kin_init_vel3`: initial speed. -/
theorem phy_kin_init_vel3_correct (v a x : ℝ) :
    Guarded (v ^ 2 - 2 * a * x < 0) (Real.sqrt (v ^ 2 - 2 * a * x)) (phyKinInitVel3 (XR.fin v) (XR.fin a) (XR.fin x)) := by
  phys phyKinInitVel3

/-- C79. `zsl_phy_kin_av_vel`: average velocity. -/
theorem phy_kin_av_vel_correct (x t : ℝ) :
    Guarded (t ≤ 0) (x / t) (phyKinAvVel (XR.fin x) (XR.fin t)) := by
  phys phyKinAvVel

/-- C79. `zsl_phy_kin_accel`: acceleration. -/
theorem phy_kin_accel_correct (v₀ v t : ℝ) :
    Guarded (t ≤ 0) ((v - v₀) / t) (phyKinAccel (XR.fin v₀) (XR.fin v) (XR.fin t)) := by
  phys phyKinAccel

/-- C79. `zsl_phy_kin_ener`: kinetic energy. -/
theorem phy_kin_ener_correct (v m : ℝ) :
    Guarded (m < 0) (m * v ^ 2 / 2) (phyKinEner (XR.fin v) (XR.fin m)) := by
  phys phyKinEner

/-! ### magnetics.c -/

/-- C79. `zsl_phy_magn_force`: Lorentz force. -/
theorem phy_magn_force_correct (q v b θ : ℝ) :
    Guarded (v < 0 ∨ b < 0) (q * v * b * Real.sin θ) (phyMagnForce (XR.fin q) (XR.fin v) (XR.fin b) (XR.fin θ)) := by
  phys phyMagnForce

/-- C79. `zsl_phy_magn_force_wire`: force on a wire. -/
theorem phy_magn_force_wire_correct (i l b θ : ℝ) :
    Guarded (l < 0 ∨ b < 0) (i * l * b * Real.sin θ) (phyMagnForceWire (XR.fin i) (XR.fin l) (XR.fin b) (XR.fin θ)) := by
  phys phyMagnForceWire

/-- C79. `zsl_phy_magn_torque_loop`: torque on a loop. -/
theorem phy_magn_torque_loop_correct (i a b θ : ℝ) :
    Guarded (a < 0 ∨ b < 0) (i * a * b * Real.sin θ) (phyMagnTorqueLoop (XR.fin i) (XR.fin a) (XR.fin b) (XR.fin θ)) := by
  phys phyMagnTorqueLoop

/-- C79. `zsl_phy_magn_pot_dipole`: energy of a dipole. -/
theorem phy_magn_pot_dipole_correct (μ b θ : ℝ) :
    Guarded (μ < 0 ∨ b < 0) (-(μ * b * Real.cos θ)) (phyMagnPotDipole (XR.fin μ) (XR.fin b) (XR.fin θ)) := by
  phys phyMagnPotDipole

/-- C79. `zsl_phy_magn_orb_radius`: radius of the orbit of a charge. -/
theorem phy_magn_orb_radius_correct (q v b m : ℝ) :
    Guarded (q = 0 ∨ b = 0 ∨ m < 0 ∨ m * v / (q * b) < 0) (m * v / (q * b)) (phyMagnOrbRadius (XR.fin q) (XR.fin v) (XR.fin b) (XR.fin m)) := by
  phys_unfold phyMagnOrbRadius
  refine guarded_of2 (bad1 := q = 0 ∨ b = 0 ∨ m < 0) (bad2 := m * v / (q * b) < 0) (by tauto) (by simp [or_assoc]) ?_ ?_
  · intro h1
    rw [XR.fin_div (mul_ne_zero (fun e => h1 (Or.inl e)) fun e => h1 (Or.inr (Or.inl e)))]
    simp
  · intro h1 h2
    rw [XR.fin_div (mul_ne_zero (fun e => h1 (Or.inl e)) fun e => h1 (Or.inr (Or.inl e)))]

/-- C79. `zsl_phy_magn_flux`: magnetic flux. -/
theorem phy_magn_flux_correct (a b θ : ℝ) :
    Guarded (a < 0 ∨ b < 0) (b * a * Real.cos θ) (phyMagnFlux (XR.fin a) (XR.fin b) (XR.fin θ)) := by
  phys phyMagnFlux

/-- C79. `zsl_phy_magn_mom`: magnetic moment. -/
theorem phy_magn_mom_correct (i a : ℝ) :
    Guarded (a < 0) (i * a) (phyMagnMom (XR.fin i) (XR.fin a)) := by
  phys phyMagnMom

/-! ### momentum.c -/

/-- C79. `zsl_phy_mom_mom`: momentum. -/
theorem phy_mom_mom_correct (m v : ℝ) :
    Guarded (m < 0) (m * v) (phyMomMom (XR.fin m) (XR.fin v)) := by
  phys phyMomMom

/-- C79. `zsl_phy_mom_imp`: impulse. -/
theorem phy_mom_imp_correct (f t : ℝ) :
    Guarded (t < 0) (f * t) (phyMomImp (XR.fin f) (XR.fin t)) := by
  phys phyMomImp

/-- C79. `zsl_phy_mom_change`: change of momentum. -/
theorem phy_mom_change_correct (m v₀ v : ℝ) :
    Guarded (m < 0) (m * v - m * v₀) (phyMomChange (XR.fin m) (XR.fin v₀) (XR.fin v)) := by
  phys phyMomChange

/-- C79. `zsl_phy_mom_elas`: second velocity after a collision. -/
theorem phy_mom_elas_correct (m₁ v₁ w₁ m₂ v₂ : ℝ) :
    Guarded (m₁ < 0 ∨ m₂ ≤ 0) ((m₁ * v₁ + m₂ * v₂ - m₁ * w₁) / m₂) (phyMomElas (XR.fin m₁) (XR.fin v₁) (XR.fin w₁) (XR.fin m₂) (XR.fin v₂)) := by
  phys phyMomElas

/-- C79. `zsl_phy_mom_inelas`: common velocity after an inelastic collision. -/
theorem phy_mom_inelas_correct (m₁ v₁ m₂ v₂ : ℝ) :
    Guarded (m₁ < 0 ∨ m₂ < 0 ∨ m₁ + m₂ = 0) ((m₁ * v₁ + m₂ * v₂) / (m₁ + m₂)) (phyMomInelas (XR.fin m₁) (XR.fin v₁) (XR.fin m₂) (XR.fin v₂)) := by
  phys phyMomInelas

/-! ### optics.c -/

/-- C79. `zsl_phy_opt_snell`: Snell's law. -/
theorem phy_opt_snell_correct (n₁ n₂ θ : ℝ) :
    Guarded (n₁ < 0 ∨ n₂ ≤ 0 ∨ 1 < abs (n₁ * Real.sin θ / n₂)) (Real.arcsin (n₁ * Real.sin θ / n₂)) (phyOptSnell (XR.fin n₁) (XR.fin n₂) (XR.fin θ)) := by
  phys_unfold phyOptSnell
  by_cases hn : n₂ = 0
  · left
    refine ⟨Or.inr (Or.inl hn.le), if_pos ?_⟩
    rw [Bool.or_eq_true, Bool.or_eq_true]; exact Or.inl (Or.inr ((XR.fin_le _ _).2 hn.le))
  · rw [XR.fin_div hn]
    refine guarded_of (by simp [or_assoc]) fun hb => ?_
    rw [not_or, not_or, not_lt, not_lt] at hb
    exact XR.fin_asin (abs_le.1 hb.2.2)

/-- C79. `zsl_phy_opt_focus`: focal length of a mirror. -/
theorem phy_opt_focus_correct (a b : ℝ) :
    Guarded (a + b = 0) (a * b / (a + b)) (phyOptFocus (XR.fin a) (XR.fin b)) := by
  phys phyOptFocus

/-- C79. `zsl_phy_opt_critic_angle`: critical angle. -/
theorem phy_opt_critic_angle_correct (n₁ n₂ : ℝ) :
    Guarded (n₁ ≤ 0 ∨ n₂ < 0 ∨ n₁ < n₂) (Real.arcsin (n₂ / n₁)) (phyOptCriticAngle (XR.fin n₁) (XR.fin n₂)) := by
  phys_unfold phyOptCriticAngle
  refine guarded_of (by simp [or_assoc]) fun hb => ?_
  rw [not_or, not_or, not_le, not_lt, not_lt] at hb
  rw [XR.fin_div hb.1.ne']
  exact XR.fin_asin ⟨by linarith [div_nonneg hb.2.1 hb.1.le], (div_le_one hb.1).2 hb.2.2⟩

/-- C79. `zsl_phy_opt_power`: power of a lens. -/
theorem phy_opt_power_correct (f : ℝ) :
    Guarded (f = 0) (1 / f) (phyOptPower (XR.fin f)) := by
  phys phyOptPower

/-- C79. `zsl_phy_opt_magn`: magnification. -/
theorem phy_opt_magn_correct (y₁ y₂ : ℝ) :
    Guarded (y₁ ≤ 0 ∨ y₂ < 0) (y₂ / y₁) (phyOptMagn (XR.fin y₁) (XR.fin y₂)) := by
  phys phyOptMagn

/-- C79. `zsl_phy_opt_dif`: diffraction grating. -/
theorem phy_opt_dif_correct (n : ℕ) (lam θ : ℝ) :
    Guarded (lam < 0 ∨ Real.sin θ ≤ 0) (n * lam / Real.sin θ) (phyOptDif n (XR.fin lam) (XR.fin θ)) := by
  phys phyOptDif

/-! ### photons.c -/

/-- C79. `zsl_phy_photon_ener`: energy of a photon (electronvolts) of a wavelength (metres). -/
theorem phy_photon_ener_correct (lam : ℝ) :
    Guarded (lam ≤ 0) (h * c / lam / e) (phyPhotonEner (XR.fin lam)) := by
  phys phyPhotonEner

/-- C79. `zsl_phy_photon_mom`: momentum of a photon. -/
theorem phy_photon_mom_correct (lam : ℝ) :
    Guarded (lam ≤ 0) (h / lam / e) (phyPhotonMom (XR.fin lam)) := by
  phys phyPhotonMom

/-- C79. `zsl_phy_photon_wavelength`: wavelength. -/
theorem phy_photon_wavelength_correct (f : ℝ) :
    Guarded (f ≤ 0) (c / f) (phyPhotonWavelength (XR.fin f)) := by
  phys phyPhotonWavelength

/-- C79. `zsl_phy_photon_frequency`: frequency. -/
theorem phy_photon_frequency_correct (lam : ℝ) :
    Guarded (lam ≤ 0) (c / lam) (phyPhotonFrequency (XR.fin lam)) := by
  phys phyPhotonFrequency

/-- C79. `zsl_phy_photon_photoelectric`: photoelectric effect. -/
theorem phy_photon_photoelectric_correct (f w : ℝ) :
    Guarded (f < 0 ∨ w < 0) (h * f / e - w) (phyPhotonPhotoelectric (XR.fin f) (XR.fin w)) := by
  phys phyPhotonPhotoelectric

/-! ### projectiles.c -/

/-- C79. `zsl_phy_proj_time`: time of flight. -/
theorem phy_proj_time_correct (v y₀ y : ℝ) :
    Guarded (v ^ 2 + 2 * g * (y₀ - y) < 0) ((v + Real.sqrt (v ^ 2 + 2 * g * (y₀ - y))) / g) (phyProjTime (XR.fin v) (XR.fin y₀) (XR.fin y)) := by
  phys phyProjTime

/-- C79. `zsl_phy_proj_time_first`: first time at a height. -/
theorem phy_proj_time_first_correct (v y₀ y : ℝ) :
    Guarded (v ^ 2 + 2 * g * (y₀ - y) < 0 ∨ v < Real.sqrt (v ^ 2 + 2 * g * (y₀ - y))) ((v - Real.sqrt (v ^ 2 + 2 * g * (y₀ - y))) / g) (phyProjTimeFirst (XR.fin v) (XR.fin y₀) (XR.fin y)) := by
  phys_unfold phyProjTimeFirst
  rw [← sq]
  refine guarded_of2 (bad1 := v ^ 2 + 2 * g * (y₀ - y) < 0) (bad2 := v < Real.sqrt (v ^ 2 + 2 * g * (y₀ - y))) Iff.rfl
    (by simp) ?_ ?_
  · intro h1
    rw [not_lt] at h1
    rw [XR.fin_sqrt h1, XR.fin_sub, XR.fin_div g_pos.ne', XR.fin_lt, div_lt_iff₀ g_pos, zero_mul, sub_neg]
  · intro h1 _
    rw [not_lt] at h1
    rw [XR.fin_sqrt h1, XR.fin_sub, XR.fin_div g_pos.ne']

/-- C79. `zsl_phy_proj_time2`: time between two vertical velocities. -/
theorem phy_proj_time2_correct (v₀ v : ℝ) :
    Guarded (v₀ < v) ((v₀ - v) / g) (phyProjTime2 (XR.fin v₀) (XR.fin v)) := by
  phys_unfold phyProjTime2
  rw [XR.fin_div g_pos.ne']
  refine guarded_of ?_ fun _ => rfl
  rw [XR.fin_lt, div_lt_iff₀ g_pos, zero_mul, sub_neg]

/-- C79. `zsl_phy_proj_ver_motion`: height. -/
theorem phy_proj_ver_motion_correct (v t y₀ : ℝ) :
    Guarded (t < 0) (y₀ + v * t - g * t ^ 2 / 2) (phyProjVerMotion (XR.fin v) (XR.fin t) (XR.fin y₀)) := by
  phys phyProjVerMotion

/-- C79. `zsl_phy_proj_ver_vel`: vertical velocity. -/
theorem phy_proj_ver_vel_correct (v t : ℝ) :
    Guarded (t < 0) (v - g * t) (phyProjVerVel (XR.fin v) (XR.fin t)) := by
  phys phyProjVerVel

/-- C79. `zsl_phy_proj_hor_motion`: horizontal position. -/
theorem phy_proj_hor_motion_correct (v t x₀ : ℝ) :
    Guarded (t < 0) (x₀ + v * t) (phyProjHorMotion (XR.fin v) (XR.fin t) (XR.fin x₀)) := by
  phys phyProjHorMotion

/-- C79. `zsl_phy_proj_trajectory`: height above a horizontal position. -/
theorem phy_proj_trajectory_correct (vh vv x₀ y₀ x : ℝ) :
    Guarded (vh = 0 ∨ (x - x₀) / vh < 0) (y₀ + vv * ((x - x₀) / vh) - g * ((x - x₀) / vh) ^ 2 / 2) (phyProjTrajectory (XR.fin vh) (XR.fin vv) (XR.fin x₀) (XR.fin y₀) (XR.fin x)) := by
  phys_unfold phyProjTrajectory
  by_cases hv : vh = 0
  · left
    refine ⟨Or.inl hv, if_pos ?_⟩
    rw [Bool.or_eq_true]; exact Or.inl ((XR.fin_eq _ _).2 hv)
  · rw [XR.fin_div hv]
    refine guarded_of (by simp) fun hb => ?_
    rcases phy_proj_ver_motion_correct vv ((x - x₀) / vh) y₀ with ⟨h, -⟩ | ⟨-, h⟩
    · exact absurd (Or.inr h) hb
    · rw [h]

/-- C79. `zsl_phy_proj_vel`: speed. -/
theorem phy_proj_vel_correct (vh vv : ℝ) :
    Guarded (False) (Real.sqrt (vh ^ 2 + vv ^ 2)) (phyProjVel (XR.fin vh) (XR.fin vv)) := by
  phys0 phyProjVel

/-! ### rotation.c -/

/-- C79. `zsl_phy_rot_angle`: angle under constant angular acceleration. -/
theorem phy_rot_angle_correct (ω₀ t a : ℝ) :
    Guarded (t < 0) (ω₀ * t + a * t ^ 2 / 2) (phyRotAngle (XR.fin ω₀) (XR.fin t) (XR.fin a)) := by
  phys phyRotAngle

/-- C79. `zsl_phy_rot_dist`: arc length. -/
theorem phy_rot_dist_correct (φ r : ℝ) :
    Guarded (r < 0) (r * φ) (phyRotDist (XR.fin φ) (XR.fin r)) := by
  phys phyRotDist

/-- C79. `zsl_phy_rot_turn`: number of turns. -/
theorem phy_rot_turn_correct (φ : ℝ) :
    Guarded (False) (φ / (2 * π')) (phyRotTurn (XR.fin φ)) := by
  phys0 phyRotTurn

/-- C79. `zsl_phy_rot_time`: time between two angular velocities. -/
theorem phy_rot_time_correct (ω₀ ω a : ℝ) :
    Guarded (a = 0 ∨ (ω - ω₀) / a < 0) ((ω - ω₀) / a) (phyRotTime (XR.fin ω₀) (XR.fin ω) (XR.fin a)) := by
  phys_unfold phyRotTime
  by_cases ha : a = 0
  · left
    refine ⟨Or.inl ha, if_pos ?_⟩
    rw [Bool.or_eq_true]; exact Or.inr ((XR.fin_eq _ _).2 ha)
  · rw [XR.fin_div ha]
    refine guarded_of ?_ fun _ => rfl
    rw [Bool.or_eq_true, XR.fin_lt, XR.fin_eq, or_comm]

/-- C79. `zsl_phy_rot_omega`: angular velocity. -/
theorem phy_rot_omega_correct (ω₀ t a : ℝ) :
    Guarded (t < 0) (ω₀ + a * t) (phyRotOmega (XR.fin ω₀) (XR.fin t) (XR.fin a)) := by
  phys phyRotOmega

/-- C79. `zsl_phy_rot_omega2`: angular speed. -/
theorem phy_rot_omega2_correct (ω₀ φ a : ℝ) :
    Guarded (ω₀ ^ 2 + 2 * a * φ < 0) (Real.sqrt (ω₀ ^ 2 + 2 * a * φ)) (phyRotOmega2 (XR.fin ω₀) (XR.fin φ) (XR.fin a)) := by
  phys phyRotOmega2

/-- C79. `zsl_phy_rot_av_omega`: average angular velocity. -/
theorem phy_rot_av_omega_correct (φ t : ℝ) :
    Guarded (t ≤ 0) (φ / t) (phyRotAvOmega (XR.fin φ) (XR.fin t)) := by
  phys phyRotAvOmega

/-- C79. `zsl_phy_rot_vel`: tangential velocity. -/
theorem phy_rot_vel_correct (ω r : ℝ) :
    Guarded (r < 0) (ω * r) (phyRotVel (XR.fin ω) (XR.fin r)) := by
  phys phyRotVel

/-- C79. `zsl_phy_rot_ang_accel`: angular acceleration. -/
theorem phy_rot_ang_accel_correct (ω₀ ω t : ℝ) :
    Guarded (t ≤ 0) ((ω - ω₀) / t) (phyRotAngAccel (XR.fin ω₀) (XR.fin ω) (XR.fin t)) := by
  phys phyRotAngAccel

/-- C79. `zsl_phy_rot_accel`: tangential acceleration. -/
theorem phy_rot_accel_correct (a r : ℝ) :
    Guarded (r < 0) (a * r) (phyRotAccel (XR.fin a) (XR.fin r)) := by
  phys phyRotAccel

/-- C79. `zsl_phy_rot_ener`: rotational energy. -/
theorem phy_rot_ener_correct (ω i : ℝ) :
    Guarded (i < 0) (i * ω ^ 2 / 2) (phyRotEner (XR.fin ω) (XR.fin i)) := by
  phys phyRotEner

/-- C79. `zsl_phy_rot_period`: period. -/
theorem phy_rot_period_correct (ω : ℝ) :
    Guarded (ω ≤ 0) (2 * π' / ω) (phyRotPeriod (XR.fin ω)) := by
  phys phyRotPeriod

/-- C79. `zsl_phy_rot_frequency`: frequency. -/
theorem phy_rot_frequency_correct (ω : ℝ) :
    Guarded (ω < 0) (ω / (2 * π')) (phyRotFrequency (XR.fin ω)) := by
  phys phyRotFrequency

/-- C79. `zsl_phy_rot_cent_accel`: centripetal acceleration. -/
theorem phy_rot_cent_accel_correct (v r : ℝ) :
    Guarded (r ≤ 0) (v ^ 2 / r) (phyRotCentAccel (XR.fin v) (XR.fin r)) := by
  phys phyRotCentAccel

/-- C79. `zsl_phy_rot_cent_accel2`: centripetal acceleration of a period. -/
theorem phy_rot_cent_accel2_correct (t r : ℝ) :
    Guarded (r < 0 ∨ t ≤ 0) ((2 * π' / t) ^ 2 * r) (phyRotCentAccel2 (XR.fin t) (XR.fin r)) := by
  phys phyRotCentAccel2

/-- C79. `zsl_phy_rot_total_accel`: total acceleration. -/
theorem phy_rot_total_accel_correct (a c : ℝ) :
    Guarded (False) (Real.sqrt (a ^ 2 + c ^ 2)) (phyRotTotalAccel (XR.fin a) (XR.fin c)) := by
  phys0 phyRotTotalAccel

/-- C79. `zsl_phy_rot_power`: power of a rotation. -/
theorem phy_rot_power_correct (τ ω : ℝ) :
    Guarded (False) (τ * ω) (phyRotPower (XR.fin τ) (XR.fin ω)) := by
  phys0 phyRotPower

/-! ### sound.c -/

/-- C79. `zsl_phy_sound_press_amp`: pressure amplitude. -/
theorem phy_sound_press_amp_correct (b κ a : ℝ) :
    Guarded (b < 0 ∨ κ < 0 ∨ a < 0) (b * κ * a) (phySoundPressAmp (XR.fin b) (XR.fin κ) (XR.fin a)) := by
  phys phySoundPressAmp

/-- C79. `zsl_phy_sound_dop_effect`: Doppler effect. -/
theorem phy_sound_dop_effect_correct (v vs vl f : ℝ) :
    Guarded (f < 0 ∨ v + vs = 0 ∨ f * (v + vl) / (v + vs) < 0) (f * ((v + vl) / (v + vs))) (phySoundDopEffect (XR.fin v) (XR.fin vs) (XR.fin vl) (XR.fin f)) := by
  phys_unfold phySoundDopEffect
  refine guarded_of2 (bad1 := f < 0 ∨ v + vs = 0) (bad2 := f * (v + vl) / (v + vs) < 0) (by tauto) (by simp) ?_ ?_
  · intro h1
    rw [XR.fin_div fun e => h1 (Or.inr e)]
    simp
  · intro h1 h2
    rw [XR.fin_div fun e => h1 (Or.inr e), mul_div_assoc]

/-- C79. `zsl_phy_sound_beat`: frequency of beats. -/
theorem phy_sound_beat_correct (fa fb : ℝ) :
    Guarded (fa < 0 ∨ fb < 0) (abs (fa - fb)) (phySoundBeat (XR.fin fa) (XR.fin fb)) := by
  phys phySoundBeat

/-! ### thermo.c -/

/-- C79. `zsl_phy_thermo_heat_fusion`: latent heat. -/
theorem phy_thermo_heat_fusion_correct (m l : ℝ) :
    Guarded (m < 0 ∨ l < 0) (m * l) (phyThermoHeatFusion (XR.fin m) (XR.fin l)) := by
  phys phyThermoHeatFusion

/-- C79. `zsl_phy_thermo_heat`: heat. -/
theorem phy_thermo_heat_correct (m s t : ℝ) :
    Guarded (m < 0 ∨ s < 0) (m * s * t) (phyThermoHeat (XR.fin m) (XR.fin s) (XR.fin t)) := by
  phys phyThermoHeat

/-- C79. `zsl_phy_thermo_expan`: thermal expansion. -/
theorem phy_thermo_expan_correct (l₀ a t : ℝ) :
    Guarded (l₀ < 0 ∨ a < 0) (l₀ * (1 + a * t)) (phyThermoExpan (XR.fin l₀) (XR.fin a) (XR.fin t)) := by
  phys phyThermoExpan

/-- C79. `zsl_phy_thermo_mean_free_path`: mean free path (micrometres). -/
theorem phy_thermo_mean_free_path_correct (nv d : ℝ) :
    Guarded (nv ≤ 0 ∨ d ≤ 0) (1 / (Real.sqrt 2 * π' * nv * d ^ 2) * 1e6) (phyThermoMeanFreePath (XR.fin nv) (XR.fin d)) := by
  phys phyThermoMeanFreePath

/-- C79. `zsl_phy_thermo_effic_heat_engine`: efficiency of a heat engine. -/
theorem phy_thermo_effic_heat_engine_correct (qc qh : ℝ) :
    Guarded (qh = 0 ∨ qh < qc) (1 - qc / qh) (phyThermoEfficHeatEngine (XR.fin qc) (XR.fin qh)) := by
  phys phyThermoEfficHeatEngine

/-- C79. `zsl_phy_thermo_carnot_engine`: Carnot engine. -/
theorem phy_thermo_carnot_engine_correct (tc qc th : ℝ) :
    Guarded (tc ≤ 0 ∨ th < tc) (qc * (th / tc)) (phyThermoCarnotEngine (XR.fin tc) (XR.fin qc) (XR.fin th)) := by
  phys phyThermoCarnotEngine

/-! ### work.c -/

/-- C79. `zsl_phy_work_module`: work. -/
theorem phy_work_module_correct (f d : ℝ) :
    Guarded (f < 0 ∨ d < 0) (f * d) (phyWorkModule (XR.fin f) (XR.fin d)) := by
  phys phyWorkModule

/-- C79. `zsl_phy_work_x`: work along x. -/
theorem phy_work_x_correct (f d θ : ℝ) :
    Guarded (f < 0 ∨ d < 0) (f * d * Real.cos θ) (phyWorkX (XR.fin f) (XR.fin d) (XR.fin θ)) := by
  phys_unfold phyWorkX
  refine guarded_of (by simp) fun hb => ?_
  rcases phy_work_module_correct f d with ⟨h, -⟩ | ⟨-, h⟩
  · exact absurd h hb
  · rw [h, XR.fin_mul]

/-- C79. `zsl_phy_work_y`: work along y. -/
theorem phy_work_y_correct (f d θ : ℝ) :
    Guarded (f < 0 ∨ d < 0) (f * d * Real.sin θ) (phyWorkY (XR.fin f) (XR.fin d) (XR.fin θ)) := by
  phys_unfold phyWorkY
  refine guarded_of (by simp) fun hb => ?_
  rcases phy_work_module_correct f d with ⟨h, -⟩ | ⟨-, h⟩
  · exact absurd h hb
  · rw [h, XR.fin_mul]

/-- C79. `zsl_phy_work_kin`: work done by a change of kinetic energy. -/
theorem phy_work_kin_correct (k₁ k₂ : ℝ) :
    Guarded (False) (k₂ - k₁) (phyWorkKin (XR.fin k₁) (XR.fin k₂)) := by
  phys0 phyWorkKin

/-! ### atomic.c -/

/-- C79. `zsl_phy_atom_nucl_radius`: radius of a nucleus (femtometres). -/
theorem phy_atom_nucl_radius_correct (a : ℕ) :
    Guarded (a = 0) (r₀ * (a : ℝ) ^ ((1 : ℝ) / 3) * 1e15) (phyAtomNuclRadius a) := by
  phys_unfold phyAtomNuclRadius
  refine guarded_of (by simp) fun hb => ?_
  rw [XR.fin_div (by norm_num), XR.fin_pow_pos _ (by positivity), XR.fin_mul, XR.fin_mul]

/-- C79. `zsl_phy_atom_bohr_orb_radius`: Bohr radius (nanometres). -/
theorem phy_atom_bohr_orb_radius_correct (z n : ℕ) :
    Guarded (z = 0) (n ^ 2 * hbar ^ 2 / (z * k * e ^ 2 * me) * 1e9) (phyAtomBohrOrbRadius z n) := by
  phys phyAtomBohrOrbRadius

/-- C79. `zsl_phy_atom_rad_decay`: radioactive decay. -/
theorem phy_atom_rad_decay_correct (q t lam : ℝ) :
    Guarded (t < 0 ∨ lam < 0) (q * e' ^ (-(lam * t))) (phyAtomRadDecay (XR.fin q) (XR.fin t) (XR.fin lam)) := by
  phys_unfold phyAtomRadDecay
  refine guarded_of (by simp) fun _ => ?_
  rw [XR.fin_pow_pos _ e'_pos, XR.fin_mul, neg_mul]

/-- C79. `zsl_phy_atom_bragg`: Bragg's law. -/
theorem phy_atom_bragg_correct (n : ℕ) (θ lam : ℝ) :
    Guarded (lam < 0 ∨ Real.sin θ ≤ 0) (n * lam / (2 * Real.sin θ)) (phyAtomBragg n (XR.fin θ) (XR.fin lam)) := by
  phys phyAtomBragg

end Verif
