import Verif.Base.XR

/-!
# Specification of the physics helpers

`Guarded bad v out`: what a caller may expect of a helper with domain `¬ bad` and value `v`: outside its domain it
returns `-EINVAL` and NaN, inside it returns 0 and the real number `v`.
The constants of nature are the ones documented in consts.h.
-/

namespace Verif

/-- The contract of a guarded formula. -/
def Guarded (bad : Prop) (v : ℝ) (out : Int × XR) : Prop :=
  (bad ∧ out = (-EINVAL, XR.nan)) ∨ (¬bad ∧ out = (0, XR.fin v))

namespace Phys

/-- Permittivity of free space. -/
noncomputable def ε₀ : ℝ := 8.85e-12
/-- Newton's constant. -/
noncomputable def G : ℝ := 6.67408e-11
/-- Gravity of the earth. -/
noncomputable def g : ℝ := 9.807
/-- Radius of a nucleon. -/
noncomputable def r₀ : ℝ := 1.25e-15
/-- Planck's constant. -/
noncomputable def h : ℝ := 6.62607015e-34
/-- Reduced Planck constant. -/
noncomputable def hbar : ℝ := 1.054571800e-34
/-- Elementary charge; also one electronvolt in joules. -/
noncomputable def e : ℝ := 1.602176634e-19
/-- Coulomb's constant. -/
noncomputable def k : ℝ := 8.987551787e9
/-- Mass of the electron. -/
noncomputable def me : ℝ := 9.1093835611e-31
/-- Speed of light. -/
noncomputable def c : ℝ := 299792458
/-- Ideal gas constant. -/
noncomputable def Rgas : ℝ := 8.314462618
/-- The library's approximation of π. -/
noncomputable def π' : ℝ := 3.14159265359
/-- The library's approximation of Euler's number. -/
noncomputable def e' : ℝ := 2.71828182845

theorem ε₀_pos : 0 < ε₀ := by unfold ε₀; norm_num
theorem G_pos : 0 < G := by unfold G; norm_num
theorem g_pos : 0 < g := by unfold g; norm_num
theorem r₀_pos : 0 < r₀ := by unfold r₀; norm_num
theorem h_pos : 0 < h := by unfold h; norm_num
theorem hbar_pos : 0 < hbar := by unfold hbar; norm_num
theorem e_pos : 0 < e := by unfold e; norm_num
theorem k_pos : 0 < k := by unfold k; norm_num
theorem me_pos : 0 < me := by unfold me; norm_num
theorem c_pos : 0 < c := by unfold c; norm_num
theorem Rgas_pos : 0 < Rgas := by unfold Rgas; norm_num
theorem π'_pos : 0 < π' := by unfold π'; norm_num
theorem e'_pos : 0 < e' := by unfold e'; norm_num

end Phys

end Verif
