import Verif.Spec.Fusion
import Verif.Model.Kalman
import Mathlib.LinearAlgebra.Matrix.PosDef

/-!
# What the theorems on the extended Kalman filter talk about

The textbook equations of the filter with the attitude as the state, over the real numbers and without memory.
-/

namespace Verif

open Quaternion Matrix

/-- The four numbers of a quaternion. -/
def coords (q : ℍ[ℝ]) : Fin 4 → ℝ := ![q.re, q.imI, q.imJ, q.imK]

/-- Four numbers as a quaternion. -/
def ofCoords (d : Fin 4 → ℝ) : ℍ[ℝ] := hq (d 0) (d 1) (d 2) (d 3)

/-- The matrix of the multiplication with `p` from the right. -/
noncomputable def rightMul (p : ℍ[ℝ]) : Matrix (Fin 4) (Fin 4) ℝ := Matrix.of fun i j => coords (ofCoords (Pi.single j 1) * p) i

/-- The matrix which takes a rate `w` to the product of `q` with it. -/
noncomputable def rateMap (q : ℍ[ℝ]) : Matrix (Fin 4) (Fin 3) ℝ := Matrix.of fun i j => coords (q * pureQ (Pi.single j 1)) i

/-- Down. -/
def down : V3 := ![0, 0, -1]

/-- Two vectors one after the other. -/
def stack (a b : V3) : Fin 6 → ℝ := ![a 0, a 1, a 2, b 0, b 1, b 2]

/-- The vector `v` seen from the attitude `q`, `q* v q`, written for quaternions of length one so that no division is needed. -/
def seenBy (q : ℍ[ℝ]) (v : V3) : V3 :=
  ![v 0 * (1 - 2 * q.imJ ^ 2 - 2 * q.imK ^ 2) + v 1 * (2 * (q.imI * q.imJ + q.re * q.imK)) + v 2 * (2 * (q.imI * q.imK - q.re * q.imJ)),
    v 0 * (2 * (q.imI * q.imJ - q.re * q.imK)) + v 1 * (1 - 2 * q.imI ^ 2 - 2 * q.imK ^ 2) + v 2 * (2 * (q.imJ * q.imK + q.re * q.imI)),
    v 0 * (2 * (q.imI * q.imK + q.re * q.imJ)) + v 1 * (2 * (q.imJ * q.imK - q.re * q.imI)) + v 2 * (1 - 2 * q.imI ^ 2 - 2 * q.imJ ^ 2)]

/-- One call of the filter: the sample frequency, the inclination, the variances and the readings. -/
structure KalmIn where
  freq : ℕ
  incl : Option ℝ
  varG : ℝ
  varA : ℝ
  varM : ℝ
  a : V3
  m : V3
  g : V3

namespace KalmIn

/-- The arguments of the call. -/
def sens (x : KalmIn) : Sens3 XR := ⟨some (vec x.a []), some (vec x.m []), some (vec x.g [])⟩

/-- The configuration of the call, with the covariance `P` in a buffer which goes on with `t`. -/
def cfg (x : KalmIn) (P : Matrix (Fin 4) (Fin 4) ℝ) (t : List XR) : KalmCfg XR :=
  ⟨XR.fin x.varG, XR.fin x.varA, XR.fin x.varM, mat P t⟩

/-- The vector divided by its length, and zero when it is shorter than `1e-6`. -/
noncomputable def unit3 (v : V3) : V3 := if len v < 1e-6 then 0 else (len v)⁻¹ • v

/-- The predicted attitude. -/
noncomputable def att (x : KalmIn) (q : ℍ[ℝ]) : ℍ[ℝ] := eulerStep x.freq x.g q

/-- The predicted covariance. -/
noncomputable def prior (x : KalmIn) (q : ℍ[ℝ]) (P : Matrix (Fin 4) (Fin 4) ℝ) : Matrix (Fin 4) (Fin 4) ℝ :=
  rightMul (1 + (1 / (2 * (x.freq : ℝ))) • pureQ x.g) * P * (rightMul (1 + (1 / (2 * (x.freq : ℝ))) • pureQ x.g))ᵀ +
    (x.varG * (1 / (2 * (x.freq : ℝ))) ^ 2) • (rateMap q * (rateMap q)ᵀ)

/-- The direction of the magnetic field of the earth the filter uses. -/
noncomputable def field (x : KalmIn) (q : ℍ[ℝ]) : V3 := unit3 (earthField x.incl (x.att q) (unitOf x.m))

/-- The derivative of `u ↦ (seenBy u down, seenBy u b)`, for a field `b` without east component. -/
def jac (b : V3) (u : ℍ[ℝ]) : Matrix (Fin 6) (Fin 4) ℝ :=
  !![2 * u.imJ, -2 * u.imK, 2 * u.re, -2 * u.imI;
     -2 * u.imI, -2 * u.re, -2 * u.imK, -2 * u.imJ;
     0, 4 * u.imI, 4 * u.imJ, 0;
     -2 * b 2 * u.imJ, 2 * b 2 * u.imK, -4 * b 0 * u.imJ - 2 * b 2 * u.re, -4 * b 0 * u.imK + 2 * b 2 * u.imI;
     -2 * b 0 * u.imK + 2 * b 2 * u.imI, 2 * b 0 * u.imJ + 2 * b 2 * u.re, 2 * b 0 * u.imI + 2 * b 2 * u.imK, -2 * b 0 * u.re + 2 * b 2 * u.imJ;
     2 * b 0 * u.imJ, 2 * b 0 * u.imK - 4 * b 2 * u.imI, 2 * b 0 * u.re - 4 * b 2 * u.imJ, 2 * b 0 * u.imI]

/-- The Jacobian of the call. -/
noncomputable def H (x : KalmIn) (q : ℍ[ℝ]) : Matrix (Fin 6) (Fin 4) ℝ := jac (x.field q) (x.att q)

/-- The variances of the measurement. -/
def noise (x : KalmIn) : Matrix (Fin 6) (Fin 6) ℝ := Matrix.diagonal ![x.varA, x.varA, x.varA, x.varM, x.varM, x.varM]

/-- The covariance of the innovation. -/
noncomputable def S (x : KalmIn) (q : ℍ[ℝ]) (P : Matrix (Fin 4) (Fin 4) ℝ) : Matrix (Fin 6) (Fin 6) ℝ :=
  x.H q * x.prior q P * (x.H q)ᵀ + x.noise

/-- The gain, for the inverse `C` of `S`. -/
noncomputable def gain (x : KalmIn) (q : ℍ[ℝ]) (P : Matrix (Fin 4) (Fin 4) ℝ) (C : Matrix (Fin 6) (Fin 6) ℝ) : Matrix (Fin 4) (Fin 6) ℝ :=
  x.prior q P * (x.H q)ᵀ * C

/-- The innovation as the filter computes it: the directions measured minus twice the directions turned by the predicted attitude. -/
noncomputable def innov (x : KalmIn) (q : ℍ[ℝ]) : Fin 6 → ℝ :=
  stack (unitOf x.a) (unitOf x.m) - (2 : ℝ) • stack (turned (x.att q) down) (turned (x.att q) (x.field q))

/-- The corrected attitude. -/
noncomputable def attPost (x : KalmIn) (q : ℍ[ℝ]) (P : Matrix (Fin 4) (Fin 4) ℝ) (C : Matrix (Fin 6) (Fin 6) ℝ) : ℍ[ℝ] :=
  direction (x.att q + ofCoords (x.gain q P C *ᵥ x.innov q))

/-- The corrected covariance. -/
noncomputable def post (x : KalmIn) (q : ℍ[ℝ]) (P : Matrix (Fin 4) (Fin 4) ℝ) (C : Matrix (Fin 6) (Fin 6) ℝ) : Matrix (Fin 4) (Fin 4) ℝ :=
  (1 - x.gain q P C * x.H q) * x.prior q P

end KalmIn

end Verif
