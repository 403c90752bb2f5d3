import Mathlib.Analysis.Quaternion
import Verif.Base.XR
import Verif.Model.Quaternions

/-!
# What it means for a `struct zsl_quat` to hold a quaternion

Mathlib's quaternions `ℍ[ℝ]` (with its product, inverse, conjugation and norm) are the specification.
-/

namespace Verif

open Quaternion

/-- The `struct zsl_quat` holding the quaternion `q`. -/
def quat (q : ℍ[ℝ]) : Quat XR := ⟨XR.fin q.re, XR.fin q.imI, XR.fin q.imJ, XR.fin q.imK⟩

/-- The quaternion `r + i·𝐢 + j·𝐣 + k·𝐤`. -/
def hq (r i j k : ℝ) : ℍ[ℝ] := (⟨r, i, j, k⟩ : QuaternionAlgebra ℝ (-1) 0 (-1))

@[simp] theorem hq_re (r i j k : ℝ) : (hq r i j k).re = r := rfl
@[simp] theorem hq_imI (r i j k : ℝ) : (hq r i j k).imI = i := rfl
@[simp] theorem hq_imJ (r i j k : ℝ) : (hq r i j k).imJ = j := rfl
@[simp] theorem hq_imK (r i j k : ℝ) : (hq r i j k).imK = k := rfl

/-- The direction of `q`, and zero when `q` is shorter than `1e-6`. -/
noncomputable def direction (q : ℍ[ℝ]) : ℍ[ℝ] := if ‖q‖ < 1e-6 then 0 else ‖q‖⁻¹ • q

end Verif
