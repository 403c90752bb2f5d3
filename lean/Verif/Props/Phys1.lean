import Verif.Lemmas.Physics

/-!
# Physics helpers compute their formulas, part 1

Each theorem covers every finite input: outside the stated domain the helper returns `-EINVAL` and NaN, inside it returns 0 and the
value of the textbook formula, which therefore is a finite number (no division by zero, no root of a negative number).
-/

namespace Verif

open Out Phys

/-! ### dynamics.c -/

/-- C79. `zsl_phy_dyn_newton`: Newton's second law `F = m a`. -/
theorem phy_dyn_newton_correct (m a : ℝ) :
    Guarded (m < 0) (m * a) (phyDynNewton (XR.fin m) (XR.fin a)) := by
  phys phyDynNewton

/-- C79. `zsl_phy_dyn_fric`: friction `F = μ N` for `0 ≤ μ ≤ 1`. -/
theorem phy_dyn_fric_correct (n μ : ℝ) :
    Guarded (μ < 0 ∨ 1 < μ) (μ * n) (phyDynFric (XR.fin n) (XR.fin μ)) := by
  phys phyDynFric

/-- C79. `zsl_phy_dyn_normal`: normal force on a slope. -/
theorem phy_dyn_normal_correct (m θ : ℝ) :
    Guarded (m < 0) (m * g * Real.cos θ) (phyDynNormal (XR.fin m) (XR.fin θ)) := by
  phys phyDynNormal

/-- C79. `zsl_phy_dyn_pendul_period`: period of a pendulum. -/
theorem phy_dyn_pendul_period_correct (l : ℝ) :
    Guarded (l < 0) (2 * π' * Real.sqrt (l / g)) (phyDynPendulPeriod (XR.fin l)) := by
  phys phyDynPendulPeriod

/-- C79. `zsl_phy_dyn_pendul_max_speed`: greatest speed of a pendulum: `v² = 2 g h` with `h` the height of release. -/
theorem phy_dyn_pendul_max_speed_correct (l θ : ℝ) :
    Guarded (l < 0) (Real.sqrt (2 * g * (l * (1 - Real.cos θ)))) (phyDynPendulMaxSpeed (XR.fin l) (XR.fin θ)) := by
  phys_unfold phyDynPendulMaxSpeed
  refine guarded_of (by simp) fun hb => ?_
  have h0 : 0 ≤ 1 - Real.cos θ := by linarith [Real.cos_le_one θ]
  rw [not_lt] at hb
  rw [XR.fin_sqrt (by positivity), mul_assoc (2 * g)]

/-- C79. `zsl_phy_dyn_tension`: tension of a cable. -/
theorem phy_dyn_tension_correct (m a : ℝ) :
    Guarded (m < 0) (m * (g + a)) (phyDynTension (XR.fin m) (XR.fin a)) := by
  phys phyDynTension

/-- C79. `zsl_phy_dyn_lever`: lever `f₁ d₁ = f₂ d₂`. -/
theorem phy_dyn_lever_correct (d₁ f₁ d₂ : ℝ) :
    Guarded (d₁ < 0 ∨ d₂ ≤ 0) (f₁ * d₁ / d₂) (phyDynLever (XR.fin d₁) (XR.fin f₁) (XR.fin d₂)) := by
  phys phyDynLever

/-! ### eleccomp.c -/

/-- C79. `zsl_phy_ecmp_capac_cpv`: capacitance of charge and voltage. -/
theorem phy_ecmp_capac_cpv_correct (q v : ℝ) :
    Guarded (v = 0) (q / v) (phyEcmpCapacCpv (XR.fin q) (XR.fin v)) := by
  phys phyEcmpCapacCpv

/-- C79. `zsl_phy_ecmp_capac_ad`: capacitance of a plate capacitor. -/
theorem phy_ecmp_capac_ad_correct (a d : ℝ) :
    Guarded (d = 0) (ε₀ * a / d) (phyEcmpCapacAd (XR.fin a) (XR.fin d)) := by
  phys phyEcmpCapacAd

/-- C79. `zsl_phy_ecmp_ener_capac`: energy of a capacitor. -/
theorem phy_ecmp_ener_capac_correct (c v : ℝ) :
    Guarded (False) (c * v ^ 2 / 2) (phyEcmpEnerCapac (XR.fin c) (XR.fin v)) := by
  phys0 phyEcmpEnerCapac

/-- C79. `zsl_phy_ecmp_ener_induc`: energy of an inductor. -/
theorem phy_ecmp_ener_induc_correct (l i : ℝ) :
    Guarded (False) (l * i ^ 2 / 2) (phyEcmpEnerInduc (XR.fin l) (XR.fin i)) := by
  phys0 phyEcmpEnerInduc

/-- C79. `zsl_phy_ecmp_trans`: transformer. -/
theorem phy_ecmp_trans_correct (n₁ : ℕ) (v₁ : ℝ) (n₂ : ℕ) :
    Guarded (n₁ = 0) (v₁ * (n₂ / n₁)) (phyEcmpTrans n₁ (XR.fin v₁) n₂) := by
  phys phyEcmpTrans

/-- C79. `zsl_phy_ecmp_rlc_volt`: voltage of an RLC circuit. -/
theorem phy_ecmp_rlc_volt_correct (vr vl vc : ℝ) :
    Guarded (False) (Real.sqrt (vr ^ 2 + (vl - vc) ^ 2)) (phyEcmpRlcVolt (XR.fin vr) (XR.fin vl) (XR.fin vc)) := by
  phys_unfold phyEcmpRlcVolt
  refine guarded_free ?_
  have h2 := XR.fin_pow_nat (vl - vc) 2
  rw [Nat.cast_ofNat] at h2
  rw [h2, XR.fin_add, XR.fin_sqrt (add_nonneg (mul_self_nonneg _) (sq_nonneg _)), ← sq]

/-- C79. `zsl_phy_ecmp_rc_charg_i`: charging current of an RC circuit. -/
theorem phy_ecmp_rc_charg_i_correct (r c t i₀ : ℝ) :
    Guarded (r * c ≤ 0 ∨ i₀ < 0 ∨ t < 0) (i₀ * Real.exp (-(t / (r * c)))) (phyEcmpRcChargI (XR.fin r) (XR.fin c) (XR.fin t) (XR.fin i₀)) := by
  phys phyEcmpRcChargI

/-- C79. `zsl_phy_ecmp_rc_charg_q`: charge of an RC circuit being charged. -/
theorem phy_ecmp_rc_charg_q_correct (r c t q₀ : ℝ) :
    Guarded (r * c ≤ 0 ∨ q₀ < 0 ∨ t < 0) (q₀ * (1 - Real.exp (-(t / (r * c))))) (phyEcmpRcChargQ (XR.fin r) (XR.fin c) (XR.fin t) (XR.fin q₀)) := by
  phys phyEcmpRcChargQ

/-- C79. `zsl_phy_ecmp_rc_discharg_i`: discharging current of an RC circuit. -/
theorem phy_ecmp_rc_discharg_i_correct (r c t i₀ : ℝ) :
    Guarded (r * c ≤ 0 ∨ i₀ < 0 ∨ t < 0) (-(i₀ * Real.exp (-(t / (r * c))))) (phyEcmpRcDischargI (XR.fin r) (XR.fin c) (XR.fin t) (XR.fin i₀)) := by
  phys phyEcmpRcDischargI

/-- C79. `zsl_phy_ecmp_rc_discharg_q`: charge of an RC circuit being discharged. -/
theorem phy_ecmp_rc_discharg_q_correct (r c t q₀ : ℝ) :
    Guarded (r * c ≤ 0 ∨ q₀ < 0 ∨ t < 0) (q₀ * Real.exp (-(t / (r * c)))) (phyEcmpRcDischargQ (XR.fin r) (XR.fin c) (XR.fin t) (XR.fin q₀)) := by
  phys phyEcmpRcDischargQ

/-- C79. `zsl_phy_ecmp_rl_current`: current of an RL circuit. -/
theorem phy_ecmp_rl_current_correct (r l t i₀ : ℝ) :
    Guarded (l ≤ 0 ∨ i₀ < 0 ∨ t < 0 ∨ r < 0) (i₀ * (1 - Real.exp (-(r / l * t)))) (phyEcmpRlCurrent (XR.fin r) (XR.fin l) (XR.fin t) (XR.fin i₀)) := by
  phys phyEcmpRlCurrent

/-! ### electric.c -/

/-- C79. `zsl_phy_elec_charge_dens`: charge density. -/
theorem phy_elec_charge_dens_correct (q v : ℝ) :
    Guarded (v ≤ 0) (q / v) (phyElecChargeDens (XR.fin q) (XR.fin v)) := by
  phys phyElecChargeDens

/-- C79. `zsl_phy_elec_force`: Coulomb's law. -/
theorem phy_elec_force_correct (q₁ q₂ r : ℝ) :
    Guarded (r ≤ 0) (k * q₁ * q₂ / r ^ 2) (phyElecForce (XR.fin q₁) (XR.fin q₂) (XR.fin r)) := by
  phys phyElecForce

/-- C79. `zsl_phy_elec_force2`: force on a charge in a field. -/
theorem phy_elec_force2_correct (q f : ℝ) :
    Guarded (False) (q * f) (phyElecForce2 (XR.fin q) (XR.fin f)) := by
  phys0 phyElecForce2

/-- C79. `zsl_phy_elec_field`: field of a point charge. -/
theorem phy_elec_field_correct (q r : ℝ) :
    Guarded (r ≤ 0) (k * q / r ^ 2) (phyElecField (XR.fin q) (XR.fin r)) := by
  phys phyElecField

/-- C79. `zsl_phy_elec_pot_ener`: potential energy of two charges. -/
theorem phy_elec_pot_ener_correct (q₁ q₂ r : ℝ) :
    Guarded (r ≤ 0) (k * q₁ * q₂ / r) (phyElecPotEner (XR.fin q₁) (XR.fin q₂) (XR.fin r)) := by
  phys phyElecPotEner

/-- C79. `zsl_phy_elec_potential`: potential of a point charge. -/
theorem phy_elec_potential_correct (q r : ℝ) :
    Guarded (r ≤ 0) (k * q / r) (phyElecPotential (XR.fin q) (XR.fin r)) := by
  phys phyElecPotential

/-- C79. `zsl_phy_elec_flux`: electric flux. -/
theorem phy_elec_flux_correct (f a θ : ℝ) :
    Guarded (f < 0 ∨ a < 0) (f * a * Real.cos θ) (phyElecFlux (XR.fin f) (XR.fin a) (XR.fin θ)) := by
  phys phyElecFlux

/-! ### electricity.c -/

/-- C79. `zsl_phy_elcty_current`: current. -/
theorem phy_elcty_current_correct (q t : ℝ) :
    Guarded (t ≤ 0) (q / t) (phyElctyCurrent (XR.fin q) (XR.fin t)) := by
  phys phyElctyCurrent

/-- C79. `zsl_phy_elcty_resistivity`: resistivity. -/
theorem phy_elcty_resistivity_correct (r a l : ℝ) :
    Guarded (a < 0 ∨ l ≤ 0 ∨ r < 0) (r * a / l) (phyElctyResistivity (XR.fin r) (XR.fin a) (XR.fin l)) := by
  phys phyElctyResistivity

/-- C79. `zsl_phy_elcty_ohm_law`: Ohm's law. -/
theorem phy_elcty_ohm_law_correct (i r : ℝ) :
    Guarded (r < 0) (r * i) (phyElctyOhmLaw (XR.fin i) (XR.fin r)) := by
  phys phyElctyOhmLaw

/-- C79. `zsl_phy_elcty_power_vi`: electric power. -/
theorem phy_elcty_power_vi_correct (v i : ℝ) :
    Guarded (False) (v * i) (phyElctyPowerVi (XR.fin v) (XR.fin i)) := by
  phys0 phyElctyPowerVi

/-- C79. `zsl_phy_elcty_power_ir`: electric power. -/
theorem phy_elcty_power_ir_correct (i r : ℝ) :
    Guarded (r < 0) (i ^ 2 * r) (phyElctyPowerIr (XR.fin i) (XR.fin r)) := by
  phys phyElctyPowerIr

/-- C79. `zsl_phy_elcty_power_vr`: electric power. -/
theorem phy_elcty_power_vr_correct (v r : ℝ) :
    Guarded (r ≤ 0) (v ^ 2 / r) (phyElctyPowerVr (XR.fin v) (XR.fin r)) := by
  phys phyElctyPowerVr

/-! ### energy.c -/

/-- C79. `zsl_phy_ener_kin`: kinetic energy. -/
theorem phy_ener_kin_correct (v m : ℝ) :
    Guarded (m < 0) (m * v ^ 2 / 2) (phyEnerKin (XR.fin v) (XR.fin m)) := by
  phys phyEnerKin

/-- C79. `zsl_phy_ener_rot`: rotational energy. -/
theorem phy_ener_rot_correct (ω i : ℝ) :
    Guarded (i < 0) (i * ω ^ 2 / 2) (phyEnerRot (XR.fin ω) (XR.fin i)) := by
  phys phyEnerRot

/-- C79. `zsl_phy_ener_grav_pot`: potential energy. -/
theorem phy_ener_grav_pot_correct (m y : ℝ) :
    Guarded (m < 0) (m * g * y) (phyEnerGravPot (XR.fin m) (XR.fin y)) := by
  phys phyEnerGravPot

/-- C79. `zsl_phy_ener_elas_pot`: energy of a spring. -/
theorem phy_ener_elas_pot_correct (κ x : ℝ) :
    Guarded (κ < 0) (κ * x ^ 2 / 2) (phyEnerElasPot (XR.fin κ) (XR.fin x)) := by
  phys phyEnerElasPot

/-- C79. `zsl_phy_ener_power`: power. -/
theorem phy_ener_power_correct (w t : ℝ) :
    Guarded (t ≤ 0) (w / t) (phyEnerPower (XR.fin w) (XR.fin t)) := by
  phys phyEnerPower

/-- C79. `zsl_phy_ener_fric`: energy lost by friction. -/
theorem phy_ener_fric_correct (f x : ℝ) :
    Guarded (x < 0 ∨ f < 0) (-(f * x)) (phyEnerFric (XR.fin f) (XR.fin x)) := by
  phys phyEnerFric

/-- C79. `zsl_phy_ener_mec`: mechanical energy. -/
theorem phy_ener_mec_correct (a b c d : ℝ) :
    Guarded (False) (a + b + c + d) (phyEnerMec (XR.fin a) (XR.fin b) (XR.fin c) (XR.fin d)) := by
  phys0 phyEnerMec

/-- C79. `zsl_phy_ener_final`: the remaining energy of a closed system. -/
theorem phy_ener_final_correct (a₁ a₂ a₃ a₄ b₁ b₂ b₃ : ℝ) :
    Guarded (False) (a₁ + a₂ + a₃ + a₄ - (b₁ + b₂ + b₃)) (phyEnerFinal (XR.fin a₁) (XR.fin a₂) (XR.fin a₃) (XR.fin a₄) (XR.fin b₁) (XR.fin b₂) (XR.fin b₃)) := by
  phys0 phyEnerFinal

/-- C79. `zsl_phy_ener_photon`: energy of a photon, in electronvolts. -/
theorem phy_ener_photon_correct (f : ℝ) :
    Guarded (f < 0) (h * f / e) (phyEnerPhoton (XR.fin f)) := by
  phys phyEnerPhoton

/-- C79. `zsl_phy_ener_photon2`: energy of a photon (electronvolts) of a wavelength (nanometres). -/
theorem phy_ener_photon2_correct (lam : ℝ) :
    Guarded (lam ≤ 0) (h * c / (lam * 1e-9) / e) (phyEnerPhoton2 (XR.fin lam)) := by
  phys phyEnerPhoton2

/-! ### fluids.c -/

/-- C79. `zsl_phy_fluid_dens`: density. -/
theorem phy_fluid_dens_correct (m v : ℝ) :
    Guarded (m < 0 ∨ v ≤ 0) (m / v) (phyFluidDens (XR.fin m) (XR.fin v)) := by
  phys phyFluidDens

/-- C79. `zsl_phy_fluid_simple_press`: pressure. -/
theorem phy_fluid_simple_press_correct (f a : ℝ) :
    Guarded (f < 0 ∨ a ≤ 0) (f / a) (phyFluidSimplePress (XR.fin f) (XR.fin a)) := by
  phys phyFluidSimplePress

/-- C79. `zsl_phy_fluid_press`: pressure at a depth (kilopascals). -/
theorem phy_fluid_press_correct (p₀ y d : ℝ) :
    Guarded (p₀ < 0 ∨ y < 0 ∨ d < 0) (p₀ + d * g * y / 1000) (phyFluidPress (XR.fin p₀) (XR.fin y) (XR.fin d)) := by
  phys phyFluidPress

/-- C79. `zsl_phy_fluid_bouyant_force`: buoyancy (kilonewtons). -/
theorem phy_fluid_bouyant_force_correct (v d : ℝ) :
    Guarded (v < 0 ∨ d < 0) (d * v * g / 1000) (phyFluidBouyantForce (XR.fin v) (XR.fin d)) := by
  phys phyFluidBouyantForce

/-- C79. `zsl_phy_fluid_flow_rate`: continuity equation. -/
theorem phy_fluid_flow_rate_correct (a₁ v₁ a₂ : ℝ) :
    Guarded (v₁ < 0 ∨ a₁ < 0 ∨ a₂ ≤ 0) (a₁ * v₁ / a₂) (phyFluidFlowRate (XR.fin a₁) (XR.fin v₁) (XR.fin a₂)) := by
  phys phyFluidFlowRate

/-- C79. `zsl_phy_fluid_force_prop`: Pascal's principle. -/
theorem phy_fluid_force_prop_correct (a₁ f₁ a₂ : ℝ) :
    Guarded (f₁ < 0 ∨ a₂ < 0 ∨ a₁ ≤ 0) (f₁ / a₁ * a₂) (phyFluidForceProp (XR.fin a₁) (XR.fin f₁) (XR.fin a₂)) := by
  phys phyFluidForceProp

/-- C79. `zsl_phy_fluid_bernoulli`: Bernoulli's principle (kilopascals). -/
theorem phy_fluid_bernoulli_correct (d v₁ p₁ v₂ : ℝ) :
    Guarded (v₁ < 0 ∨ v₂ < 0 ∨ p₁ < 0 ∨ d < 0) (p₁ + (d * v₁ ^ 2 / 2 - d * v₂ ^ 2 / 2) / 1000) (phyFluidBernoulli (XR.fin d) (XR.fin v₁) (XR.fin p₁) (XR.fin v₂)) := by
  phys phyFluidBernoulli

/-- C79. `zsl_phy_fluid_volume_flow_rate`: volume flow rate. -/
theorem phy_fluid_volume_flow_rate_correct (v a : ℝ) :
    Guarded (v < 0 ∨ a < 0) (v * a) (phyFluidVolumeFlowRate (XR.fin v) (XR.fin a)) := by
  phys phyFluidVolumeFlowRate

/-! ### gases.c -/

/-- C79. `zsl_phy_gas_av_vel`: mean speed of gas particles. -/
theorem phy_gas_av_vel_correct (m n t : ℝ) :
    Guarded (m ≤ 0 ∨ n < 0 ∨ t < 0) (Real.sqrt (3 * n * Rgas * t / m)) (phyGasAvVel (XR.fin m) (XR.fin n) (XR.fin t)) := by
  phys phyGasAvVel

/-- C79. `zsl_phy_gas_press`: ideal gas. -/
theorem phy_gas_press_correct (v n t : ℝ) :
    Guarded (v ≤ 0 ∨ n < 0 ∨ t < 0) (n * Rgas * t / v) (phyGasPress (XR.fin v) (XR.fin n) (XR.fin t)) := by
  phys phyGasPress

/-- C79. `zsl_phy_gas_boyle`: Boyle's law. -/
theorem phy_gas_boyle_correct (p₁ v₁ p₂ : ℝ) :
    Guarded (p₂ ≤ 0 ∨ v₁ < 0 ∨ p₁ < 0) (p₁ * v₁ / p₂) (phyGasBoyle (XR.fin p₁) (XR.fin v₁) (XR.fin p₂)) := by
  phys phyGasBoyle

/-- C79. `zsl_phy_gas_charles_lussac`: Charles's law. -/
theorem phy_gas_charles_lussac_correct (t₁ v₁ t₂ : ℝ) :
    Guarded (t₁ ≤ 0 ∨ v₁ < 0 ∨ t₂ < 0) (v₁ / t₁ * t₂) (phyGasCharlesLussac (XR.fin t₁) (XR.fin v₁) (XR.fin t₂)) := by
  phys phyGasCharlesLussac

end Verif
