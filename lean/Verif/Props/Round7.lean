import Mathlib.Data.Nat.Prime.Int
import Mathlib.Tactic.NormNum.Prime
import Verif.Props.Round6

/-!
# C132: the physics helpers which add and subtract, in floating point

A sum of terms of both signs can cancel, so the error cannot be bounded by a multiple of the result; it is bounded by a multiple of the sum of the absolute values
of the terms. At the end: the error can be as large as the result.
-/

namespace Verif

/-- The decision is the same, and the accepted case is a sum of terms with a known number of roundings. -/
macro "upto" : tactic => `(tactic| (
  try simp only [of_lt_zero, of_le_zero, of_eq_zero, of_gt_one, of_lt_of, of_gt_of, add_of_eq_zero, if_true, Bool.false_eq_true, if_false]
  first
  | refine AgreesUpTo.ok ?_
  | (split_ifs <;> first | exact AgreesUpTo.rej | refine AgreesUpTo.ok ?_)
  simp only [mag, zslGravEarth, zslPlanck, XR.lit_eq, XR.fin_mul, XR.fin_add, XR.fin_sub]
  push_cast
  norm_num [abs_mul, abs_add_le]))

/-- C132 (dynamics.c): the tension of a rope, m g + m a. -/
theorem phy_dynamics_sum_rounding (F : Rounding) (a b : ℝ) :
    AgreesUpTo F 3 (|a * 9.807| + |a * b|)
      (phyDynTension (XR.fin a) (XR.fin b))
      (phyDynTension (FX.of F a) (FX.of F b)) := by
  simp only [phyDynTension]
  upto

/-- C132 (energy.c): the total energy and the missing final energy. -/
theorem phy_energy_sum_rounding (F : Rounding) (a b c d e f g : ℝ) :
    AgreesUpTo F 3 (|a| + |b| + |c| + |d|)
      (phyEnerMec (XR.fin a) (XR.fin b) (XR.fin c) (XR.fin d))
      (phyEnerMec (FX.of F a) (FX.of F b) (FX.of F c) (FX.of F d)) ∧
    AgreesUpTo F 6 (|a| + |b| + |c| + |d| + |e| + |f| + |g|)
      (phyEnerFinal (XR.fin a) (XR.fin b) (XR.fin c) (XR.fin d) (XR.fin e) (XR.fin f) (XR.fin g))
      (phyEnerFinal (FX.of F a) (FX.of F b) (FX.of F c) (FX.of F d) (FX.of F e) (FX.of F f) (FX.of F g)) := by
  refine ⟨?_, ?_⟩ <;> simp only [phyEnerMec, phyEnerFinal] <;> upto

/-- C132 (fluids.c): the equation of Bernoulli. -/
theorem phy_fluids_sum_rounding (F : Rounding) (a b c d : ℝ) :
    AgreesUpTo F 8 (|c| + 0.5 * |a| * (b * b + d * d) * 0.001)
      (phyFluidBernoulli (XR.fin a) (XR.fin b) (XR.fin c) (XR.fin d))
      (phyFluidBernoulli (FX.of F a) (FX.of F b) (FX.of F c) (FX.of F d)) := by
  simp only [phyFluidBernoulli]
  upto

/-- C132 (kinematics.c): distances, positions and velocities. -/
theorem phy_kinematics_sum_rounding (F : Rounding) (a b c d : ℝ) :
    AgreesUpTo F 5 (|a * b| + |0.5 * c * b * b|)
      (phyKinDist (XR.fin a) (XR.fin b) (XR.fin c))
      (phyKinDist (FX.of F a) (FX.of F b) (FX.of F c)) ∧
    AgreesUpTo F 6 (|d| + (|a * b| + |0.5 * c * b * b|))
      (phyKinInitPos (XR.fin a) (XR.fin b) (XR.fin c) (XR.fin d))
      (phyKinInitPos (FX.of F a) (FX.of F b) (FX.of F c) (FX.of F d)) ∧
    AgreesUpTo F 6 (|d| + (b * b + a * a) / |2 * c|)
      (phyKinInitPos2 (XR.fin a) (XR.fin b) (XR.fin c) (XR.fin d))
      (phyKinInitPos2 (FX.of F a) (FX.of F b) (FX.of F c) (FX.of F d)) ∧
    AgreesUpTo F 2 (|a| + |b * c|)
      (phyKinVel (XR.fin a) (XR.fin b) (XR.fin c))
      (phyKinVel (FX.of F a) (FX.of F b) (FX.of F c)) ∧
    AgreesUpTo F 2 (|a| + |b * c|)
      (phyKinInitVel (XR.fin a) (XR.fin b) (XR.fin c))
      (phyKinInitVel (FX.of F a) (FX.of F b) (FX.of F c)) ∧
    AgreesUpTo F 6 ((|a| + |0.5 * b * c * c|) / |c|)
      (phyKinInitVel2 (XR.fin a) (XR.fin b) (XR.fin c))
      (phyKinInitVel2 (FX.of F a) (FX.of F b) (FX.of F c)) := by
  refine ⟨?_, ?_, ?_, ?_, ?_, ?_⟩ <;> simp only [phyKinDist, phyKinInitPos, phyKinInitPos2, phyKinVel, phyKinInitVel, phyKinInitVel2] <;> upto

/-- C132 (momentum.c): elastic and inelastic collisions. -/
theorem phy_momentum_sum_rounding (F : Rounding) (a b c d e : ℝ) :
    AgreesUpTo F 4 ((|a * (b - c)| + |d * e|) / |d|)
      (phyMomElas (XR.fin a) (XR.fin b) (XR.fin c) (XR.fin d) (XR.fin e))
      (phyMomElas (FX.of F a) (FX.of F b) (FX.of F c) (FX.of F d) (FX.of F e)) ∧
    AgreesUpTo F 4 ((|a * b| + |c * d|) / |a + c|)
      (phyMomInelas (XR.fin a) (XR.fin b) (XR.fin c) (XR.fin d))
      (phyMomInelas (FX.of F a) (FX.of F b) (FX.of F c) (FX.of F d)) := by
  refine ⟨?_, ?_⟩ <;> simp only [phyMomElas, phyMomInelas] <;> upto

/-- C132 (photons.c): the energy of the electron in the photoelectric effect. -/
theorem phy_photons_sum_rounding (F : Rounding) (a b : ℝ) :
    AgreesUpTo F 5 (|6.62607015e-34 * a| / 1.602176634e-19 + |b|)
      (phyPhotonPhotoelectric (XR.fin a) (XR.fin b))
      (phyPhotonPhotoelectric (FX.of F a) (FX.of F b)) := by
  simp only [phyPhotonPhotoelectric]
  upto

/-- C132 (projectiles.c): vertical and horizontal motion of a projectile. -/
theorem phy_projectiles_sum_rounding (F : Rounding) (a b c : ℝ) :
    AgreesUpTo F 6 (|c| + |a * b| + |9.807 * b * b| / 2)
      (phyProjVerMotion (XR.fin a) (XR.fin b) (XR.fin c))
      (phyProjVerMotion (FX.of F a) (FX.of F b) (FX.of F c)) ∧
    AgreesUpTo F 3 (|a| + |9.807 * b|)
      (phyProjVerVel (XR.fin a) (XR.fin b))
      (phyProjVerVel (FX.of F a) (FX.of F b)) ∧
    AgreesUpTo F 2 (|c| + |a * b|)
      (phyProjHorMotion (XR.fin a) (XR.fin b) (XR.fin c))
      (phyProjHorMotion (FX.of F a) (FX.of F b) (FX.of F c)) := by
  refine ⟨?_, ?_, ?_⟩ <;> simp only [phyProjVerMotion, phyProjVerVel, phyProjHorMotion] <;> upto

/-- C132 (rotation.c): angles and angular velocities. -/
theorem phy_rotation_sum_rounding (F : Rounding) (a b c : ℝ) :
    AgreesUpTo F 5 (|a * b| + |0.5 * c * b * b|)
      (phyRotAngle (XR.fin a) (XR.fin b) (XR.fin c))
      (phyRotAngle (FX.of F a) (FX.of F b) (FX.of F c)) ∧
    AgreesUpTo F 2 (|a| + |b * c|)
      (phyRotOmega (XR.fin a) (XR.fin b) (XR.fin c))
      (phyRotOmega (FX.of F a) (FX.of F b) (FX.of F c)) := by
  refine ⟨?_, ?_⟩ <;> simp only [phyRotAngle, phyRotOmega] <;> upto

/-- C132 (thermo.c): temperature scales, thermal expansion and the efficiency of an engine. -/
theorem phy_thermo_sum_rounding (F : Rounding) (a b c : ℝ) :
    AgreesUpTo F 5 (|9 * a| / 5 + 32)
      (phyThermoFahrenCels (XR.fin a) true)
      (phyThermoFahrenCels (FX.of F a) true) ∧
    AgreesUpTo F 6 ((|a| + 32) * 5 / 9)
      (phyThermoFahrenCels (XR.fin a) false)
      (phyThermoFahrenCels (FX.of F a) false) ∧
    AgreesUpTo F 2 (|a| + 273.15)
      (phyThermoCelsKel (XR.fin a) true)
      (phyThermoCelsKel (FX.of F a) true) ∧
    AgreesUpTo F 2 (|a| + 273.15)
      (phyThermoCelsKel (XR.fin a) false)
      (phyThermoCelsKel (FX.of F a) false) ∧
    AgreesUpTo F 3 (|a| + |a * b * c|)
      (phyThermoExpan (XR.fin a) (XR.fin b) (XR.fin c))
      (phyThermoExpan (FX.of F a) (FX.of F b) (FX.of F c)) ∧
    AgreesUpTo F 2 (1 + |a| / |b|)
      (phyThermoEfficHeatEngine (XR.fin a) (XR.fin b))
      (phyThermoEfficHeatEngine (FX.of F a) (FX.of F b)) := by
  refine ⟨?_, ?_, ?_, ?_, ?_, ?_⟩ <;> simp only [phyThermoFahrenCels, phyThermoCelsKel, phyThermoExpan, phyThermoEfficHeatEngine] <;> upto

theorem five_prime : Prime (5 : ℤ) := Nat.prime_iff_prime_int.1 (by norm_num)

/-- 273.15 has no finite binary expansion. -/
theorem nearest_kelvin (p : ℕ) : nearest p 273.15 ≠ 273.15 := by
  rw [nearest_of p (L := 8) (by norm_num) (by norm_num)]
  intro h
  obtain ⟨K, hK⟩ : ∃ K : ℤ, round ((273.15 : ℝ) / 2 ^ ((8 : ℤ) - p)) = K := ⟨_, rfl⟩
  rw [hK] at h
  have e : (2 : ℝ) ^ ((8 : ℤ) - p) * 2 ^ p = 256 := by
    rw [← zpow_natCast, ← zpow_add₀ (by norm_num), sub_add_cancel]
    norm_num
  have h2 : (K : ℝ) * 5120 = 5463 * 2 ^ p := by
    have : (K : ℝ) * 2 ^ ((8 : ℤ) - p) * 2 ^ p * 20 = 273.15 * 2 ^ p * 20 := by rw [h]
    rw [mul_assoc (K : ℝ), e] at this
    linarith
  have h3 : K * 5120 = 5463 * 2 ^ p := by exact_mod_cast h2
  have h4 : (5 : ℤ) ∣ 5463 * 2 ^ p := ⟨K * 1024, by rw [← h3]; ring⟩
  rcases five_prime.dvd_mul.1 h4 with h5 | h5
  · norm_num at h5
  · exact absurd (five_prime.dvd_of_dvd_pow h5) (by norm_num)

/-- C132: the relative error has no bound, in any precision: at the representable temperature nearest to 273.15 K the conversion to degrees Celsius returns zero, which is
not the exact difference. So no number of roundings with a relative error below one can be stated for it (compare C131). -/
theorem phy_thermo_cels_kel_cancels (p : ℕ) (lib : Libm) : ∃ t : ℝ, nearest p t = t ∧
    phyThermoCelsKel (FX.of (nearestRounding p lib) t) true = (0, FX.of (nearestRounding p lib) 0) ∧
    phyThermoCelsKel (XR.fin t) true = (0, XR.fin (t - 273.15)) ∧ t - 273.15 ≠ 0 ∧
    ∀ k, gam (nearestRounding p lib).u k < 1 →
      ¬ Agrees (nearestRounding p lib) k (phyThermoCelsKel (XR.fin t) true) (phyThermoCelsKel (FX.of (nearestRounding p lib) t) true) := by
  have run : ∀ (F : Rounding), phyThermoCelsKel (FX.of F (F.rnd 273.15)) true = (0, FX.of F 0) := by
    intro F
    simp only [phyThermoCelsKel, if_true]
    rw [FX.lit_eq, FX.of_sub]
    norm_num [F.rnd_zero]
  have ex : ∀ t : ℝ, phyThermoCelsKel (XR.fin t) true = (0, XR.fin (t - 273.15)) := by
    intro t
    simp only [phyThermoCelsKel, if_true, XR.lit_eq, XR.fin_sub]
    norm_num
  have hne : nearest p 273.15 - 273.15 ≠ 0 := sub_ne_zero.2 (nearest_kelvin p)
  refine ⟨nearest p 273.15, (nearestRounding p lib).idem _, run (nearestRounding p lib), ex _, hne, fun k hk h => ?_⟩
  obtain ⟨s, hs, hb⟩ := h.2 _ (ex _)
  have hs := (run (nearestRounding p lib)).symm.trans hs
  have : (0 : ℝ) = s := (FX.of_inj (F := nearestRounding p lib)).1 (congrArg Prod.snd hs)
  rw [← this, zero_sub, abs_neg] at hb
  have := abs_pos.2 hne
  nlinarith

/-- The bounds are not empty: after three seconds at two metres per second with an acceleration of four, twenty-four metres. -/
example : phyKinDist (XR.fin 2) (XR.fin 3) (XR.fin 4) = (0, XR.fin 24) := by
  simp only [phyKinDist, XR.fin_mul, XR.lit_eq, XR.fin_add]
  norm_num

end Verif
