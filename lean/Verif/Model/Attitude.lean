import Verif.Model.Probability
import Verif.Model.Quaternions

/-!
# Model of src/orientation/ahrs.c, src/orientation/compass.c and src/orientation/gravity.c

Bounds checks are compiled in. `zsl_att_to_vec` only aliases the memory of its argument and is modelled by its values.
-/

namespace Verif

open Out

variable {R : Type} [CReal R]

/-- consts.h:105 `ZSL_DEG_TO_RAD`. -/
def degToRad : R := lit 0.01745329252

/-- consts.h:110 `ZSL_RAD_TO_DEG`. -/
def radToDeg : R := lit 57.295779513

/-- ahrs.h:48-77 `struct zsl_attitude` without the status bits. -/
structure Attitude (R : Type) where
  roll : R
  pitch : R
  yaw : R

/-- ahrs.c:12-20 `zsl_att_to_vec`: the vector is a view of the three angles (ahrs.h: union with `idx[3]`). -/
def attToVec (a : Attitude R) : Vec R := ⟨3, [a.roll, a.pitch, a.yaw]⟩

/-- euler.c:14-22 `zsl_eul_to_vec`: the vector is a view of the three angles. -/
def eulToVec (e : Euler R) : Vec R := ⟨3, [e.x, e.y, e.z]⟩

/-- ahrs.c:22-31 `zsl_att_to_euler`. -/
def attToEuler (a : Attitude R) : Euler R :=
  ⟨a.roll * degToRad, a.pitch * degToRad, a.yaw * degToRad⟩

/-- ahrs.c:33-43 `zsl_att_from_euler`. -/
def attFromEuler (e : Euler R) : Attitude R :=
  ⟨e.x * radToDeg, e.y * radToDeg, e.z * radToDeg⟩

/-- ahrs.c:83-112 `zsl_att_from_accel`; `junk` is the content of the local vector, `a` the previous attitude. -/
def attFromAccel (junk : Nat → R) (accel : Vec R) (a : Attitude R) : Out (Int × Attitude R) :=
  if accel.sz ≠ 3 then ok (-EINVAL, a)
  else do
    let (_, u) ← vecCopy (Vec.uninit junk 3) accel
    let (_, u) ← vecToUnit u
    let u0 ← rd u.data 0
    let u1 ← rd u.data 1
    let u2 ← rd u.data 2
    let ss := u1 * u1 + u2 * u2
    return (0, ⟨CReal.atan2 u1 u2 * radToDeg, CReal.atan2 (-u0) (CReal.sqrt ss) * radToDeg, lit 0⟩)

/-- ahrs.c:45-81 `zsl_att_from_accelmag`. -/
def attFromAccelmag (junk : Nat → R) (accel mag : Vec R) (a : Attitude R) : Out (Int × Attitude R) :=
  if accel.sz ≠ 3 ∨ mag.sz ≠ 3 then ok (-EINVAL, a)
  else do
    let (_, m) ← vecCopy (Vec.uninit junk 3) mag
    let (_, m) ← vecToUnit m
    let (_, att) ← attFromAccel junk accel ⟨junk 0, junk 1, junk 2⟩
    let m0 ← rd m.data 0
    let m1 ← rd m.data 1
    let m2 ← rd m.data 2
    let sr := CReal.sin (att.roll * degToRad)
    let cr := CReal.cos (att.roll * degToRad)
    let sp := CReal.sin (att.pitch * degToRad)
    let cp := CReal.cos (att.pitch * degToRad)
    let nom := m2 * sr - m1 * cr
    let den := m0 * cp + sp * (m1 * sr + m2 * cr)
    return (0, ⟨att.roll, att.pitch, CReal.atan2 nom den * radToDeg⟩)

/-- ahrs.c:114-138 `zsl_att_accel_angle`; `b` is the previous value of `*b`, `junk 0` the uninitialised `dot`. -/
def attAccelAngle (junk : Nat → R) (a1 a2 : Vec R) (b : R) : Out (Int × R) :=
  if a1.sz ≠ 3 ∨ a2.sz ≠ 3 then ok (-EINVAL, b)
  else do
    let n1 ← vecNorm a1
    let n2 ← vecNorm a2
    let (_, dot) ← vecDot a1 a2 (junk 0)
    return (0, CReal.acos (dot / (n1 * n2)))

/-- compass.c:13-53 `zsl_comp_dms_to_dd`. -/
def compDmsToDd (d m s : R) : Int × R :=
  if CReal.lt m (lit 0) || CReal.gt m (lit 60) then (-EINVAL, lit 0)
  else if CReal.lt s (lit 0) || CReal.gt s (lit 60) then (-EINVAL, lit 0)
  else if CReal.lt d (lit (-180)) || CReal.gt d (lit 180) then (-EINVAL, lit 0)
  else if CReal.lt d (lit 0) then (0, d - m / lit 60 - s / lit 3600)
  else (0, d + m / lit 60 + s / lit 3600)

/-- compass.c:55-81 `zsl_comp_magn_north`; `d` is the previous value of `*d`. -/
def compMagnNorth (m : Vec R) (d : R) : Out (Int × R) :=
  if m.sz ≠ 3 then ok (-EINVAL, d)
  else do
    let m1 ← rd m.data 1
    if CReal.lt (CReal.abs m1) (lit 1e-6) then do
      let m0 ← rd m.data 0
      if CReal.gt m0 (lit 0) then return (0, lit 0) else return (0, lit 180)
    else if CReal.gt m1 (lit 0) then do
      let m0 ← rd m.data 0
      return (0, lit 90 - CReal.atan2 m0 m1 * lit 180 / zslPi)
    else if CReal.lt m1 (lit 0) then do
      let m0 ← rd m.data 0
      return (0, lit 270 - CReal.atan2 m0 m1 * lit 180 / zslPi)
    else return (0, d)

/-- compass.c:83-100 `zsl_comp_geo_north`. -/
def compGeoNorth (m : Vec R) (dec d : R) : Out (Int × R) :=
  if m.sz ≠ 3 then ok (-EINVAL, d)
  else do
    let (_, d) ← compMagnNorth m d
    return (0, d + dec)

/-- gravity.c:12-26 `zsl_grav_lat_alt`. -/
def gravLatAlt (lat alt : R) : Int × R :=
  if CReal.lt alt (lit 0) || CReal.gt lat (lit 90) || CReal.lt lat (lit (-90)) then (-EINVAL, CReal.nan)
  else
    let dToR : R := zslPi / lit 180
    (0, lit 9.780318 * (lit 1 + lit 0.0053024 * CReal.sin (lat * dToR) * CReal.sin (lat * dToR)
      - lit 0.0000058 * CReal.sin (lit 2 * lat * dToR) * CReal.sin (lit 2 * lat * dToR)) - lit 0.000003085 * alt)

end Verif
