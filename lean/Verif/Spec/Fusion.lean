import Mathlib.LinearAlgebra.CrossProduct
import Verif.Lemmas.VecReal
import Verif.Model.Fusion
import Verif.Spec.Quaternion

/-!
# What the sensor fusion theorems talk about

Real sensor readings, the rotation of a vector by the attitude quaternion, and one explicit Euler step of the attitude.
-/

namespace Verif

open Quaternion Matrix

/-- A vector of three real numbers. -/
abbrev V3 := Fin 3 → ℝ

/-- The pure quaternion of a vector. -/
def pureQ (v : V3) : ℍ[ℝ] := hq 0 (v 0) (v 1) (v 2)

/-- The vector `v` turned by the attitude `q`: the imaginary part of `u v u⁻¹`, with `u` the direction of `q`. -/
noncomputable def turned (q : ℍ[ℝ]) (v : V3) : V3 :=
  ![(direction q * pureQ v * (direction q)⁻¹).imI, (direction q * pureQ v * (direction q)⁻¹).imJ,
    (direction q * pureQ v * (direction q)⁻¹).imK]

/-- Euclidean length. -/
noncomputable def len (v : V3) : ℝ := Real.sqrt (v ⬝ᵥ v)

/-- Up. -/
def up : V3 := ![0, 0, 1]

/-- Readings of the accelerometer, the magnetometer (either may be absent, a NULL pointer) and the gyroscope. -/
structure Reading where
  a : Option V3
  m : Option V3
  g : V3

/-- The vector, or NULL. -/
def sensor (x : Option V3) : Option (Vec XR) := x.map fun v => vec v []

/-- The arguments of a feed with this reading. -/
def Reading.sens (r : Reading) : Sens XR := ⟨sensor r.a, sensor r.m, vec r.g []⟩

/-- One Euler step of length `1/freq` of the attitude `q` turning with the rate `w`, normalised. -/
noncomputable def eulerStep (freq : ℕ) (w : V3) (q : ℍ[ℝ]) : ℍ[ℝ] :=
  direction ((1 + (1 / (2 * (freq : ℝ))) • pureQ w) * direction q)

/-- An optional inclination (NULL when unknown). -/
def optFin (x : Option ℝ) : Option XR := x.map XR.fin

/-- The direction of the magnetic field of the earth: of the given inclination (in degrees), or else the one for which the turned
measurement `m` has no east component. -/
noncomputable def earthField (incl : Option ℝ) (q : ℍ[ℝ]) (m : V3) : V3 :=
  match incl with
  | none => ![Real.sqrt (turned q m 0 * turned q m 0 + turned q m 1 * turned q m 1), 0, turned q m 2]
  | some x => ![Real.cos (x * 3.14159265359 / 180), 0, Real.sin (x * 3.14159265359 / 180)]

/-- The return codes and states of a sequence of calls, each starting in the state the previous one left. -/
def trace {ι σ : Type} (step : ι → σ → Out (Int × σ)) : List ι → σ → Out (List (Int × σ))
  | [], _ => Out.ok []
  | i :: l, s => do
    let (rc, s) ← step i s
    let t ← trace step l s
    return (rc, s) :: t

end Verif
