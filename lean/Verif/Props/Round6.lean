import Verif.Lemmas.Agree
import Verif.Spec.Nearest

/-!
# C131: the physics helpers in floating point

Each theorem compares the helpers of one source file run with rounding (`FX F`, arguments that are representable or not: nothing is assumed about them)
with the same helpers in exact arithmetic (`XR`): the same arguments are accepted, and the result has the stated number of roundings of relative error.
The physical constants are rounded too and counted.
-/

namespace Verif

section
variable {F : Rounding}

instance : Ap F 1 zslPermFreeSpace zslPermFreeSpace := apLit _
instance : Ap F 1 zslUnivGrav zslUnivGrav := apLit _
instance : Ap F 1 zslGravEarth zslGravEarth := apLit _
instance : Ap F 1 zslPlanck zslPlanck := apLit _
instance : Ap F 1 zslRedPlanck zslRedPlanck := apLit _
instance : Ap F 1 zslECharge zslECharge := apLit _
instance : Ap F 1 zslCoulomb zslCoulomb := apLit _
instance : Ap F 1 zslEMass zslEMass := apLit _
instance : Ap F 1 zslLightSpeed zslLightSpeed := apLit _
instance : Ap F 1 zslIdealGas zslIdealGas := apLit _
instance : Ap F 1 zslPi zslPi := apLit _

theorem add_of_eq_zero (a b : ℝ) : CReal.eq (FX.of F a + FX.of F b) (lit 0) = CReal.eq (XR.fin a + XR.fin b) (lit 0) := (apAdd a b).eq_zero

/-- The square root of a positive literal is a number. -/
instance : Ap F 2 (CReal.sqrt (lit 2)) (CReal.sqrt (lit 2)) := by
  have h : CReal.sqrt (lit 2 : XR) = XR.fin (Real.sqrt ((2 : ℚ) : ℝ)) := XR.fin_sqrt (by norm_num)
  obtain ⟨x, hx, hn⟩ := (inferInstance : Apx F _ (CReal.sqrt (lit 2)) (CReal.sqrt (lit 2))).out _ h
  exact ⟨_, _, h, hx, hn⟩

/-- A sum of two squares. -/
instance (a b : ℝ) : Ap F 2 (XR.fin a * XR.fin a + XR.fin b * XR.fin b) (FX.of F a * FX.of F a + FX.of F b * FX.of F b) :=
  ⟨_, _, rfl, rfl, (Near.add_nonneg F (F.near _) (F.near _) (mul_self_nonneg a) (mul_self_nonneg b)).rnd F⟩

end

/-- The decision is the same, and the accepted case is a formula with a known number of roundings. -/
macro "agree" : tactic => `(tactic| (
  try simp only [of_lt_zero, of_le_zero, of_eq_zero, of_gt_one, of_lt_of, of_gt_of, add_of_eq_zero]
  first
  | exact Agrees.ok
  | (split_ifs
     · exact Agrees.rej
     · exact Agrees.ok)))

/-- C131 (atomic.c): the Bohr radius and velocity. -/
theorem phy_atomic_rounding (F : Rounding) (m n : ℕ) :
    Agrees F 19 (phyAtomBohrOrbRadius m n) (phyAtomBohrOrbRadius m n) ∧
    Agrees F 13 (phyAtomBohrOrbVel m n) (phyAtomBohrOrbVel m n) := by
  refine ⟨?_, ?_⟩ <;> simp only [phyAtomBohrOrbRadius, phyAtomBohrOrbVel] <;> agree

/-- C131 (dynamics.c): Newton's second law, friction, the period of a pendulum and the lever. -/
theorem phy_dynamics_rounding (F : Rounding) (a b c : ℝ) :
    Agrees F 1 (phyDynNewton (XR.fin a) (XR.fin b)) (phyDynNewton (FX.of F a) (FX.of F b)) ∧
    Agrees F 1 (phyDynFric (XR.fin a) (XR.fin b)) (phyDynFric (FX.of F a) (FX.of F b)) ∧
    Agrees F 7 (phyDynPendulPeriod (XR.fin a)) (phyDynPendulPeriod (FX.of F a)) ∧
    Agrees F 2 (phyDynLever (XR.fin a) (XR.fin b) (XR.fin c)) (phyDynLever (FX.of F a) (FX.of F b) (FX.of F c)) := by
  refine ⟨?_, ?_, ?_, ?_⟩ <;> simp only [phyDynNewton, phyDynFric, phyDynPendulPeriod, phyDynLever] <;> agree

/-- C131 (eleccomp.c): capacitance, the energy of capacitors and inductors, the transformer. -/
theorem phy_eleccomp_rounding (F : Rounding) (m n : ℕ) (a b : ℝ) :
    Agrees F 1 (phyEcmpCapacCpv (XR.fin a) (XR.fin b)) (phyEcmpCapacCpv (FX.of F a) (FX.of F b)) ∧
    Agrees F 3 (phyEcmpCapacAd (XR.fin a) (XR.fin b)) (phyEcmpCapacAd (FX.of F a) (FX.of F b)) ∧
    Agrees F 4 (phyEcmpEnerCapac (XR.fin a) (XR.fin b)) (phyEcmpEnerCapac (FX.of F a) (FX.of F b)) ∧
    Agrees F 4 (phyEcmpEnerInduc (XR.fin a) (XR.fin b)) (phyEcmpEnerInduc (FX.of F a) (FX.of F b)) ∧
    Agrees F 4 (phyEcmpTrans m (XR.fin a) n) (phyEcmpTrans m (FX.of F a) n) := by
  refine ⟨?_, ?_, ?_, ?_, ?_⟩ <;> simp only [phyEcmpCapacCpv, phyEcmpCapacAd, phyEcmpEnerCapac, phyEcmpEnerInduc, phyEcmpTrans] <;> agree

/-- C131 (electric.c): charge density, electric force, field, potential energy and potential. -/
theorem phy_electric_rounding (F : Rounding) (a b c : ℝ) :
    Agrees F 1 (phyElecChargeDens (XR.fin a) (XR.fin b)) (phyElecChargeDens (FX.of F a) (FX.of F b)) ∧
    Agrees F 5 (phyElecForce (XR.fin a) (XR.fin b) (XR.fin c)) (phyElecForce (FX.of F a) (FX.of F b) (FX.of F c)) ∧
    Agrees F 1 (phyElecForce2 (XR.fin a) (XR.fin b)) (phyElecForce2 (FX.of F a) (FX.of F b)) ∧
    Agrees F 4 (phyElecField (XR.fin a) (XR.fin b)) (phyElecField (FX.of F a) (FX.of F b)) ∧
    Agrees F 4 (phyElecPotEner (XR.fin a) (XR.fin b) (XR.fin c)) (phyElecPotEner (FX.of F a) (FX.of F b) (FX.of F c)) ∧
    Agrees F 3 (phyElecPotential (XR.fin a) (XR.fin b)) (phyElecPotential (FX.of F a) (FX.of F b)) := by
  refine ⟨?_, ?_, ?_, ?_, ?_, ?_⟩ <;> simp only [phyElecChargeDens, phyElecForce, phyElecForce2, phyElecField, phyElecPotEner, phyElecPotential] <;> agree

/-- C131 (electricity.c): current, resistivity, Ohm's law and electric power. -/
theorem phy_electricity_rounding (F : Rounding) (a b c : ℝ) :
    Agrees F 1 (phyElctyCurrent (XR.fin a) (XR.fin b)) (phyElctyCurrent (FX.of F a) (FX.of F b)) ∧
    Agrees F 2 (phyElctyResistivity (XR.fin a) (XR.fin b) (XR.fin c)) (phyElctyResistivity (FX.of F a) (FX.of F b) (FX.of F c)) ∧
    Agrees F 1 (phyElctyOhmLaw (XR.fin a) (XR.fin b)) (phyElctyOhmLaw (FX.of F a) (FX.of F b)) ∧
    Agrees F 1 (phyElctyPowerVi (XR.fin a) (XR.fin b)) (phyElctyPowerVi (FX.of F a) (FX.of F b)) ∧
    Agrees F 2 (phyElctyPowerIr (XR.fin a) (XR.fin b)) (phyElctyPowerIr (FX.of F a) (FX.of F b)) ∧
    Agrees F 2 (phyElctyPowerVr (XR.fin a) (XR.fin b)) (phyElctyPowerVr (FX.of F a) (FX.of F b)) := by
  refine ⟨?_, ?_, ?_, ?_, ?_, ?_⟩ <;> simp only [phyElctyCurrent, phyElctyResistivity, phyElctyOhmLaw, phyElctyPowerVi, phyElctyPowerIr, phyElctyPowerVr] <;> agree

/-- C131 (energy.c): kinetic, rotational, potential, elastic and photon energy, power and friction loss. -/
theorem phy_energy_rounding (F : Rounding) (a b : ℝ) :
    Agrees F 4 (phyEnerKin (XR.fin a) (XR.fin b)) (phyEnerKin (FX.of F a) (FX.of F b)) ∧
    Agrees F 4 (phyEnerRot (XR.fin a) (XR.fin b)) (phyEnerRot (FX.of F a) (FX.of F b)) ∧
    Agrees F 3 (phyEnerGravPot (XR.fin a) (XR.fin b)) (phyEnerGravPot (FX.of F a) (FX.of F b)) ∧
    Agrees F 4 (phyEnerElasPot (XR.fin a) (XR.fin b)) (phyEnerElasPot (FX.of F a) (FX.of F b)) ∧
    Agrees F 1 (phyEnerPower (XR.fin a) (XR.fin b)) (phyEnerPower (FX.of F a) (FX.of F b)) ∧
    Agrees F 1 (phyEnerFric (XR.fin a) (XR.fin b)) (phyEnerFric (FX.of F a) (FX.of F b)) ∧
    Agrees F 4 (phyEnerPhoton (XR.fin a)) (phyEnerPhoton (FX.of F a)) ∧
    Agrees F 8 (phyEnerPhoton2 (XR.fin a)) (phyEnerPhoton2 (FX.of F a)) := by
  refine ⟨?_, ?_, ?_, ?_, ?_, ?_, ?_, ?_⟩ <;> simp only [phyEnerKin, phyEnerRot, phyEnerGravPot, phyEnerElasPot, phyEnerPower, phyEnerFric, phyEnerPhoton, phyEnerPhoton2] <;> agree

/-- C131 (fluids.c): density, pressure, buoyancy and flow. -/
theorem phy_fluids_rounding (F : Rounding) (a b c : ℝ) :
    Agrees F 1 (phyFluidDens (XR.fin a) (XR.fin b)) (phyFluidDens (FX.of F a) (FX.of F b)) ∧
    Agrees F 1 (phyFluidSimplePress (XR.fin a) (XR.fin b)) (phyFluidSimplePress (FX.of F a) (FX.of F b)) ∧
    Agrees F 5 (phyFluidBouyantForce (XR.fin a) (XR.fin b)) (phyFluidBouyantForce (FX.of F a) (FX.of F b)) ∧
    Agrees F 2 (phyFluidFlowRate (XR.fin a) (XR.fin b) (XR.fin c)) (phyFluidFlowRate (FX.of F a) (FX.of F b) (FX.of F c)) ∧
    Agrees F 2 (phyFluidForceProp (XR.fin a) (XR.fin b) (XR.fin c)) (phyFluidForceProp (FX.of F a) (FX.of F b) (FX.of F c)) ∧
    Agrees F 1 (phyFluidVolumeFlowRate (XR.fin a) (XR.fin b)) (phyFluidVolumeFlowRate (FX.of F a) (FX.of F b)) := by
  refine ⟨?_, ?_, ?_, ?_, ?_, ?_⟩ <;> simp only [phyFluidDens, phyFluidSimplePress, phyFluidBouyantForce, phyFluidFlowRate, phyFluidForceProp, phyFluidVolumeFlowRate] <;> agree

/-- C131 (gases.c): the gas laws. -/
theorem phy_gases_rounding (F : Rounding) (a b c : ℝ) :
    Agrees F 7 (phyGasAvVel (XR.fin a) (XR.fin b) (XR.fin c)) (phyGasAvVel (FX.of F a) (FX.of F b) (FX.of F c)) ∧
    Agrees F 4 (phyGasPress (XR.fin a) (XR.fin b) (XR.fin c)) (phyGasPress (FX.of F a) (FX.of F b) (FX.of F c)) ∧
    Agrees F 2 (phyGasBoyle (XR.fin a) (XR.fin b) (XR.fin c)) (phyGasBoyle (FX.of F a) (FX.of F b) (FX.of F c)) ∧
    Agrees F 2 (phyGasCharlesLussac (XR.fin a) (XR.fin b) (XR.fin c)) (phyGasCharlesLussac (FX.of F a) (FX.of F b) (FX.of F c)) := by
  refine ⟨?_, ?_, ?_, ?_⟩ <;> simp only [phyGasAvVel, phyGasPress, phyGasBoyle, phyGasCharlesLussac] <;> agree

/-- C131 (gravitation.c): orbital period, escape and orbital velocity, acceleration, force and potential energy. -/
theorem phy_gravitation_rounding (F : Rounding) (a b c : ℝ) :
    Agrees F 13 (phyGravOrbPeriod (XR.fin a) (XR.fin b) (XR.fin c)) (phyGravOrbPeriod (FX.of F a) (FX.of F b) (FX.of F c)) ∧
    Agrees F 6 (phyGravEscVel (XR.fin a) (XR.fin b)) (phyGravEscVel (FX.of F a) (FX.of F b)) ∧
    Agrees F 4 (phyGravAcc (XR.fin a) (XR.fin b)) (phyGravAcc (FX.of F a) (FX.of F b)) ∧
    Agrees F 4 (phyGravOrbVel (XR.fin a) (XR.fin b)) (phyGravOrbVel (FX.of F a) (FX.of F b)) ∧
    Agrees F 5 (phyGravForce (XR.fin a) (XR.fin b) (XR.fin c)) (phyGravForce (FX.of F a) (FX.of F b) (FX.of F c)) ∧
    Agrees F 6 (phyGravPotEner (XR.fin a) (XR.fin b) (XR.fin c)) (phyGravPotEner (FX.of F a) (FX.of F b) (FX.of F c)) := by
  refine ⟨?_, ?_, ?_, ?_, ?_, ?_⟩ <;> simp only [phyGravOrbPeriod, phyGravEscVel, phyGravAcc, phyGravOrbVel, phyGravForce, phyGravPotEner] <;> agree

/-- C131 (kinematics.c): average velocity, acceleration and kinetic energy. -/
theorem phy_kinematics_rounding (F : Rounding) (a b c : ℝ) :
    Agrees F 1 (phyKinAvVel (XR.fin a) (XR.fin b)) (phyKinAvVel (FX.of F a) (FX.of F b)) ∧
    Agrees F 2 (phyKinAccel (XR.fin a) (XR.fin b) (XR.fin c)) (phyKinAccel (FX.of F a) (FX.of F b) (FX.of F c)) ∧
    Agrees F 4 (phyKinEner (XR.fin a) (XR.fin b)) (phyKinEner (FX.of F a) (FX.of F b)) := by
  refine ⟨?_, ?_, ?_⟩ <;> simp only [phyKinAvVel, phyKinAccel, phyKinEner] <;> agree

/-- C131 (momentum.c): the magnetic moment, momentum, impulse and the change of momentum. -/
theorem phy_momentum_rounding (F : Rounding) (a b c : ℝ) :
    Agrees F 1 (phyMagnMom (XR.fin a) (XR.fin b)) (phyMagnMom (FX.of F a) (FX.of F b)) ∧
    Agrees F 1 (phyMomMom (XR.fin a) (XR.fin b)) (phyMomMom (FX.of F a) (FX.of F b)) ∧
    Agrees F 2 (phyMomImp (XR.fin a) (XR.fin b)) (phyMomImp (FX.of F a) (FX.of F b)) ∧
    Agrees F 3 (phyMomChange (XR.fin a) (XR.fin b) (XR.fin c)) (phyMomChange (FX.of F a) (FX.of F b) (FX.of F c)) := by
  refine ⟨?_, ?_, ?_, ?_⟩ <;> simp only [phyMagnMom, phyMomMom, phyMomImp, phyMomChange] <;> agree

/-- C131 (optics.c): the focal length, the power of a lens and the magnification. -/
theorem phy_optics_rounding (F : Rounding) (a b : ℝ) :
    Agrees F 3 (phyOptFocus (XR.fin a) (XR.fin b)) (phyOptFocus (FX.of F a) (FX.of F b)) ∧
    Agrees F 2 (phyOptPower (XR.fin a)) (phyOptPower (FX.of F a)) ∧
    Agrees F 1 (phyOptMagn (XR.fin a) (XR.fin b)) (phyOptMagn (FX.of F a) (FX.of F b)) := by
  refine ⟨?_, ?_, ?_⟩ <;> simp only [phyOptFocus, phyOptPower, phyOptMagn] <;> agree

/-- C131 (photons.c): energy, momentum, wavelength and frequency of a photon. -/
theorem phy_photons_rounding (F : Rounding) (a : ℝ) :
    Agrees F 6 (phyPhotonEner (XR.fin a)) (phyPhotonEner (FX.of F a)) ∧
    Agrees F 4 (phyPhotonMom (XR.fin a)) (phyPhotonMom (FX.of F a)) ∧
    Agrees F 2 (phyPhotonWavelength (XR.fin a)) (phyPhotonWavelength (FX.of F a)) ∧
    Agrees F 2 (phyPhotonFrequency (XR.fin a)) (phyPhotonFrequency (FX.of F a)) := by
  refine ⟨?_, ?_, ?_, ?_⟩ <;> simp only [phyPhotonEner, phyPhotonMom, phyPhotonWavelength, phyPhotonFrequency] <;> agree

/-- C131 (projectiles.c): the speed of a projectile and the total acceleration. -/
theorem phy_projectiles_rounding (F : Rounding) (a b : ℝ) :
    Agrees F 3 (phyProjVel (XR.fin a) (XR.fin b)) (phyProjVel (FX.of F a) (FX.of F b)) ∧
    Agrees F 3 (phyRotTotalAccel (XR.fin a) (XR.fin b)) (phyRotTotalAccel (FX.of F a) (FX.of F b)) := by
  refine ⟨?_, ?_⟩ <;> simp only [phyProjVel, phyRotTotalAccel] <;> agree

/-- C131 (rotation.c): angles, velocities, accelerations, energies, periods and power. -/
theorem phy_rotation_rounding (F : Rounding) (a b c : ℝ) :
    Agrees F 1 (phyRotDist (XR.fin a) (XR.fin b)) (phyRotDist (FX.of F a) (FX.of F b)) ∧
    Agrees F 4 (phyRotTurn (XR.fin a)) (phyRotTurn (FX.of F a)) ∧
    Agrees F 1 (phyRotAvOmega (XR.fin a) (XR.fin b)) (phyRotAvOmega (FX.of F a) (FX.of F b)) ∧
    Agrees F 1 (phyRotVel (XR.fin a) (XR.fin b)) (phyRotVel (FX.of F a) (FX.of F b)) ∧
    Agrees F 2 (phyRotAngAccel (XR.fin a) (XR.fin b) (XR.fin c)) (phyRotAngAccel (FX.of F a) (FX.of F b) (FX.of F c)) ∧
    Agrees F 1 (phyRotAccel (XR.fin a) (XR.fin b)) (phyRotAccel (FX.of F a) (FX.of F b)) ∧
    Agrees F 4 (phyRotEner (XR.fin a) (XR.fin b)) (phyRotEner (FX.of F a) (FX.of F b)) ∧
    Agrees F 4 (phyRotPeriod (XR.fin a)) (phyRotPeriod (FX.of F a)) ∧
    Agrees F 4 (phyRotFrequency (XR.fin a)) (phyRotFrequency (FX.of F a)) ∧
    Agrees F 2 (phyRotCentAccel (XR.fin a) (XR.fin b)) (phyRotCentAccel (FX.of F a) (FX.of F b)) ∧
    Agrees F 8 (phyRotCentAccel2 (XR.fin a) (XR.fin b)) (phyRotCentAccel2 (FX.of F a) (FX.of F b)) ∧
    Agrees F 1 (phyRotPower (XR.fin a) (XR.fin b)) (phyRotPower (FX.of F a) (FX.of F b)) := by
  refine ⟨?_, ?_, ?_, ?_, ?_, ?_, ?_, ?_, ?_, ?_, ?_, ?_⟩ <;> simp only [phyRotDist, phyRotTurn, phyRotAvOmega, phyRotVel, phyRotAngAccel, phyRotAccel, phyRotEner, phyRotPeriod, phyRotFrequency, phyRotCentAccel, phyRotCentAccel2, phyRotPower] <;> agree

/-- C131 (sound.c): pressure amplitude, intensity and beats. -/
theorem phy_sound_rounding (F : Rounding) (a b c : ℝ) :
    Agrees F 2 (phySoundPressAmp (XR.fin a) (XR.fin b) (XR.fin c)) (phySoundPressAmp (FX.of F a) (FX.of F b) (FX.of F c)) ∧
    Agrees F 7 (phySoundIntensity (XR.fin a) (XR.fin b) (XR.fin c)) (phySoundIntensity (FX.of F a) (FX.of F b) (FX.of F c)) ∧
    Agrees F 1 (phySoundBeat (XR.fin a) (XR.fin b)) (phySoundBeat (FX.of F a) (FX.of F b)) := by
  refine ⟨?_, ?_, ?_⟩ <;> simp only [phySoundPressAmp, phySoundIntensity, phySoundBeat] <;> agree

/-- C131 (thermo.c): heat, the mean free path, the Carnot engine and work. -/
theorem phy_thermo_rounding (F : Rounding) (a b c : ℝ) :
    Agrees F 1 (phyThermoHeatFusion (XR.fin a) (XR.fin b)) (phyThermoHeatFusion (FX.of F a) (FX.of F b)) ∧
    Agrees F 2 (phyThermoHeat (XR.fin a) (XR.fin b) (XR.fin c)) (phyThermoHeat (FX.of F a) (FX.of F b) (FX.of F c)) ∧
    Agrees F 9 (phyThermoMeanFreePath (XR.fin a) (XR.fin b)) (phyThermoMeanFreePath (FX.of F a) (FX.of F b)) ∧
    Agrees F 2 (phyThermoCarnotEngine (XR.fin a) (XR.fin b) (XR.fin c)) (phyThermoCarnotEngine (FX.of F a) (FX.of F b) (FX.of F c)) ∧
    Agrees F 1 (phyWorkModule (XR.fin a) (XR.fin b)) (phyWorkModule (FX.of F a) (FX.of F b)) ∧
    Agrees F 1 (phyWorkKin (XR.fin a) (XR.fin b)) (phyWorkKin (FX.of F a) (FX.of F b)) := by
  refine ⟨?_, ?_, ?_, ?_, ?_, ?_⟩ <;> simp only [phyThermoHeatFusion, phyThermoHeat, phyThermoMeanFreePath, phyThermoCarnotEngine, phyWorkModule, phyWorkKin] <;> agree

/-! ### Helpers which decide on a computed value -/

/-- A quotient by a number which is not zero is a number. -/
theorem apDiv {F : Rounding} {k l : ℕ} {a a' : XR} {b b' : FX F} (h : Ap F k a b) (h' : Ap F l a' b') (h0 : CReal.eq a' (lit 0) = false) :
    Ap F (k + l + 1) (a / a') (b / b') := by
  obtain ⟨y, x, rfl, rfl, hn⟩ := h.out
  obtain ⟨y', x', rfl, rfl, hn'⟩ := h'.out
  have hy : y' ≠ 0 := by
    rintro rfl
    rw [XR.lit_eq, Rat.cast_zero] at h0
    exact absurd ((XR.fin_eq 0 0).2 rfl) (by rw [h0]; exact Bool.false_ne_true)
  exact ⟨_, _, XR.fin_div hy, FX.of_div (hn'.ne_zero F hy), (hn.div F hn').rnd F⟩

/-- C131 (kinematics.c, rotation.c, magnetics.c, sound.c, projectiles.c): the helpers which reject a computed time, radius or frequency below zero reject the
same arguments as exact arithmetic: rounding cannot change the sign of a difference or a quotient. -/
theorem phy_signed_rounding (F : Rounding) (a b c d : ℝ) :
    Agrees F 2 (phyKinTime (XR.fin a) (XR.fin b) (XR.fin c)) (phyKinTime (FX.of F a) (FX.of F b) (FX.of F c)) ∧
    Agrees F 2 (phyRotTime (XR.fin a) (XR.fin b) (XR.fin c)) (phyRotTime (FX.of F a) (FX.of F b) (FX.of F c)) ∧
    Agrees F 3 (phyProjTime2 (XR.fin a) (XR.fin b)) (phyProjTime2 (FX.of F a) (FX.of F b)) ∧
    Agrees F 3 (phyMagnOrbRadius (XR.fin a) (XR.fin b) (XR.fin c) (XR.fin d)) (phyMagnOrbRadius (FX.of F a) (FX.of F b) (FX.of F c) (FX.of F d)) ∧
    Agrees F 4 (phySoundDopEffect (XR.fin a) (XR.fin b) (XR.fin c) (XR.fin d)) (phySoundDopEffect (FX.of F a) (FX.of F b) (FX.of F c) (FX.of F d)) := by
  have time : Agrees F 2 (phyKinTime (XR.fin a) (XR.fin b) (XR.fin c)) (phyKinTime (FX.of F a) (FX.of F b) (FX.of F c)) := by
    simp only [phyKinTime, of_eq_zero]
    cases hc : CReal.eq (XR.fin c) (lit 0)
    · have := apDiv (F := F) (apSub b a) (apVar c) hc
      rw [this.lt_zero, Bool.or_false]
      split_ifs
      · exact Agrees.rej
      · exact Agrees.ok
    · simp only [Bool.or_true, if_true]
      exact Agrees.rej
  refine ⟨time, time, ?_, ?_, ?_⟩
  · have g : CReal.eq (zslGravEarth : XR) (lit 0) = false := by
      rw [← Bool.not_eq_true, zslGravEarth, XR.lit_eq, XR.lit_eq, XR.fin_eq]
      norm_num
    have := apDiv (F := F) (apSub a b) (inferInstance : Ap F 1 zslGravEarth zslGravEarth) g
    simp only [phyProjTime2]
    rw [this.lt_zero]
    split_ifs
    · exact Agrees.rej
    · exact Agrees.ok
  · simp only [phyMagnOrbRadius, of_eq_zero, of_lt_zero]
    by_cases h1 : (CReal.eq (XR.fin a) (lit 0) || CReal.eq (XR.fin c) (lit 0) || CReal.lt (XR.fin d) (lit 0)) = true
    · rw [if_pos h1, if_pos h1]
      exact Agrees.rej
    · rw [if_neg h1, if_neg h1]
      have hq : CReal.eq (XR.fin a * XR.fin c) (lit 0) = false := by
        rw [← Bool.not_eq_true]
        rw [Bool.or_eq_true, Bool.or_eq_true, not_or, not_or] at h1
        have ha := h1.1.1
        have hc := h1.1.2
        rw [XR.lit_eq, Rat.cast_zero, XR.fin_eq] at ha hc
        rw [XR.lit_eq, Rat.cast_zero, XR.fin_mul, XR.fin_eq]
        exact mul_ne_zero ha hc
      have := apDiv (F := F) (inferInstance : Ap F _ (XR.fin d * XR.fin b) (FX.of F d * FX.of F b)) (inferInstance : Ap F _ (XR.fin a * XR.fin c) (FX.of F a * FX.of F c)) hq
      rw [this.lt_zero]
      split_ifs
      · exact Agrees.rej
      · exact Agrees.ok
  · simp only [phySoundDopEffect, add_of_eq_zero, of_lt_zero]
    by_cases h1 : (CReal.lt (XR.fin d) (lit 0) || CReal.eq (XR.fin a + XR.fin b) (lit 0)) = true
    · rw [if_pos h1, if_pos h1]
      exact Agrees.rej
    · rw [if_neg h1, if_neg h1]
      have hq : CReal.eq (XR.fin a + XR.fin b) (lit 0) = false := by
        rw [← Bool.not_eq_true]
        rw [Bool.or_eq_true, not_or] at h1
        exact h1.2
      have := apDiv (F := F) (inferInstance : Ap F _ (XR.fin d * (XR.fin a + XR.fin c)) (FX.of F d * (FX.of F a + FX.of F c))) (apAdd a b) hq
      rw [this.lt_zero]
      split_ifs
      · exact Agrees.rej
      · exact Agrees.ok

/-- C131 (fluids.c): the pressure at a depth is a sum of terms which are not negative, so it is as accurate as its terms. -/
theorem phy_fluid_press_rounding (F : Rounding) (a b c : ℝ) :
    Agrees F 6 (phyFluidPress (XR.fin a) (XR.fin b) (XR.fin c)) (phyFluidPress (FX.of F a) (FX.of F b) (FX.of F c)) := by
  simp only [phyFluidPress, of_lt_zero]
  split_ifs with h
  · exact Agrees.rej
  · rw [Bool.or_eq_true, Bool.or_eq_true, not_or, not_or] at h
    obtain ⟨⟨ha, hb⟩, hc⟩ := h
    rw [XR.lit_eq, Rat.cast_zero, XR.fin_lt, not_lt] at ha hb hc
    obtain ⟨y, x, hy, hx, hn⟩ := (inferInstance : Ap F 5 (XR.fin b * XR.fin c * zslGravEarth * lit 1e-3) (FX.of F b * FX.of F c * zslGravEarth * lit 1e-3)).out
    have hy0 : 0 ≤ y := by
      have e : y = b * c * ((9.807 : ℚ) : ℝ) * ((1e-3 : ℚ) : ℝ) := (XR.fin.inj hy).symm
      rw [e]
      have : 0 ≤ b * c := mul_nonneg hb hc
      push_cast
      positivity
    rw [hy, hx]
    have : Apx F 6 (XR.fin a + XR.fin y) (FX.of F a + FX.of F x) := by
      refine ⟨fun r e => ?_⟩
      cases e
      exact ⟨_, rfl, (Near.add_nonneg F (Near.refl F a) hn ha hy0).rnd F⟩
    exact Agrees.ok

/-- The statements are not empty: two kilograms at three metres per second squared need six newtons, to one rounding; and the sizes of the errors are those of double
precision. -/
example (lib : Libm) : phyDynNewton (XR.fin 2) (XR.fin 3) = (0, XR.fin 6) ∧ gam (nearestRounding 52 lib).u 19 < 1e-14 := by
  refine ⟨?_, ?_⟩
  · have h : CReal.lt (XR.fin 2) (lit 0) = false := by
      rw [← Bool.not_eq_true, XR.lit_eq, XR.fin_lt]
      norm_num
    simp only [phyDynNewton, h, XR.fin_mul]
    norm_num
  · have hu : (nearestRounding 52 lib).u = (1 / 2) ^ 53 := rfl
    refine (gam_le (nearestRounding 52 lib).u_lt (k := 19) (by rw [hu]; norm_num)).trans_lt ?_
    rw [hu]
    norm_num
end Verif
