import Verif.Model.NoChk
import Verif.Model.Attitude
import Verif.Model.Physics

/-!
# Quaternions, attitude, compass, probability and centre of mass with `CONFIG_ZSL_BOUNDS_CHECKS=n`

The functions of src/orientation/quaternions.c, ahrs.c, compass.c, src/probability.c and src/physics/mass.c without the guarded blocks,
calling the unchecked functions of `Model/NoChk.lean`. Functions that are not listed contain no guarded block and call no function with
one; tests that stand outside a guarded block (antiparallel arguments of slerp, negative arguments of the factorial, the tests of the
centre of mass) are kept. `zsl_comp_magn_north` and `zsl_comp_geo_north` keep their label `err` without a jump to it, which is only a warning.
-/

namespace Verif.NoChk

open Out

variable {R : Type} [CReal R]

/-! ### Quaternions -/

/-- quaternions.c:145-174 `zsl_quat_exp`. Bounds checks off. -/
def quatExp (q : Quat R) : Out (Quat R) := do
  let v : Vec R := ⟨3, [q.i, q.j, q.k]⟩
  let vmag ← vecNorm v
  let (_, v) ← vecToUnit v
  let vsin := CReal.sin vmag
  let rexp := CReal.exp q.r
  let v0 ← rd v.data 0
  let v1 ← rd v.data 1
  let v2 ← rd v.data 2
  return ⟨CReal.cos vmag * rexp, v0 * vsin * rexp, v1 * vsin * rexp, v2 * vsin * rexp⟩

/-- quaternions.c:176-203 `zsl_quat_log`. Bounds checks off. -/
def quatLog (q : Quat R) : Out (Quat R) := do
  let (_, v) ← vecToUnit (⟨3, [q.i, q.j, q.k]⟩ : Vec R)
  let qmag := quatMagn q
  let racos := CReal.acos (q.r / qmag)
  let v0 ← rd v.data 0
  let v1 ← rd v.data 1
  let v2 ← rd v.data 2
  return ⟨CReal.log qmag, v0 * racos, v1 * racos, v2 * racos⟩

/-- quaternions.c:205-231 `zsl_quat_pow`; none of the functions it calls fails. Bounds checks off. -/
def quatPow (q : Quat R) (e : R) : Out (Quat R) := do
  let l ← quatLog q
  quatExp (quatScale l e)

/-- quaternions.c:289-313 `zsl_quat_rot`; `qr` is the previous value of `*qr`. Bounds checks off. -/
def quatRot (qa qb _qr : Quat R) : Int × Quat R :=
    let qn := quatToUnit qa
    let qm := quatMult qn qb
    let qi := quatInv qn
    (0, quatMult qm qi)

/-- quaternions.c:315-353 `zsl_quat_lerp`; `qi` is the previous value of `*qi`. Bounds checks off. -/
def quatLerp (qa qb : Quat R) (t : R) (_qi : Quat R) : Int × Quat R :=
    let q1 := quatScale (quatToUnit qa) (lit 1 - t)
    let q2 := quatScale (quatToUnit qb) t
    (0, quatToUnit (quatSum q1 q2))

/-- quaternions.c:355-445 `zsl_quat_slerp`. Bounds checks off. -/
def quatSlerp (qa qb : Quat R) (t : R) (qi : Quat R) : Int × Quat R :=
    let a := quatToUnit qa
    let b := quatToUnit qb
    if CReal.eq t (lit 0) then (0, a)
    else if CReal.eq t (lit 1) then (0, b)
    else
      let dot := a.r * b.r + a.i * b.i + a.j * b.j + a.k * b.k
      if CReal.lt (CReal.abs (dot - lit 1)) (lit 1e-6) then (0, a)
      else if CReal.lt (CReal.abs (dot + lit 1)) (lit 1e-6) then (-EINVAL, qi)
      else
        let phi := CReal.acos dot
        let phiS := CReal.sin phi
        let phiSt := CReal.sin (phi * t)
        let phiSmt := CReal.sin (phi * (lit 1 - t))
        (0, quatSum (quatScale a (phiSmt / phiS)) (quatScale b (phiSt / phiS)))

/-- quaternions.c:447-485 `zsl_quat_from_ang_vel`. Bounds checks off. -/
def quatFromAngVel (w : Vec R) (qin : Quat R) (t : R) (_qout : Quat R) : Out (Int × Quat R) := do
    let w0 ← rd w.data 0
    let w1 ← rd w.data 1
    let w2 ← rd w.data 2
    let qin2 := quatToUnit qin
    let wq := quatScale (quatMult ⟨lit 0, w0, w1, w2⟩ qin2) (lit 0.5 * t)
    return (0, quatToUnit (quatSum qin2 wq))

/-- quaternions.c:487-510 `zsl_quat_from_ang_mom`; `junk` is the content of the local vector. Bounds checks off. -/
def quatFromAngMom (junk : Nat → R) (l : Vec R) (qin : Quat R) (i t : R) (qout : Quat R) : Out (Int × Quat R) := do
    let (_, w) ← vecCopy (Vec.uninit junk 3) l
    let (_, w) ← vecScalarDiv w i
    let (_, qout) ← quatFromAngVel w qin t qout
    return (0, qout)

/-- quaternions.c:564-597 `zsl_quat_to_rot_mtx`. The quaternion is not normalised. Bounds checks off. -/
def quatToRotMtx (q : Quat R) (m : Mtx R) : Out (Int × Mtx R) := do
    let (_, m) ← mtxSet m 0 0 (lit 1 - lit 2 * (q.j * q.j + q.k * q.k))
    let (_, m) ← mtxSet m 0 1 (lit 2 * (q.i * q.j - q.k * q.r))
    let (_, m) ← mtxSet m 0 2 (lit 2 * (q.i * q.k + q.j * q.r))
    let (_, m) ← mtxSet m 1 0 (lit 2 * (q.i * q.j + q.k * q.r))
    let (_, m) ← mtxSet m 1 1 (lit 1 - lit 2 * (q.i * q.i + q.k * q.k))
    let (_, m) ← mtxSet m 1 2 (lit 2 * (q.j * q.k - q.i * q.r))
    let (_, m) ← mtxSet m 2 0 (lit 2 * (q.i * q.k - q.j * q.r))
    let (_, m) ← mtxSet m 2 1 (lit 2 * (q.j * q.k + q.i * q.r))
    let (_, m) ← mtxSet m 2 2 (lit 1 - lit 2 * (q.i * q.i + q.j * q.j))
    return (0, m)

/-- quaternions.c:599-636 `zsl_quat_from_rot_mtx`. Bounds checks off. -/
def quatFromRotMtx (m : Mtx R) (_q : Quat R) : Out (Int × Quat R) := do
    let m0 ← rd m.data 0
    let m1 ← rd m.data 1
    let m2 ← rd m.data 2
    let m3 ← rd m.data 3
    let m4 ← rd m.data 4
    let m5 ← rd m.data 5
    let m6 ← rd m.data 6
    let m7 ← rd m.data 7
    let m8 ← rd m.data 8
    let r := lit 0.5 * CReal.sqrt (m0 + m4 + m8 + lit 1)
    let i := lit 0.5 * CReal.sqrt (m0 - m4 - m8 + lit 1)
    let j := lit 0.5 * CReal.sqrt (-m0 + m4 - m8 + lit 1)
    let k := lit 0.5 * CReal.sqrt (-m0 - m4 + m8 + lit 1)
    return (0, ⟨r, signedBy i m7 m5, signedBy j m2 m6, signedBy k m3 m1⟩)

/-- quaternions.c:638-672 `zsl_quat_to_axis_angle`; returns the axis and the angle. Bounds checks off. -/
def quatToAxisAngle (q : Quat R) (a : Vec R) (_b : R) : Out (Int × Vec R × R) := do
    let n := quatToUnit q
    if CReal.lt (CReal.abs (n.r - lit 1)) (lit 1e-6) then do
      let d ← wr a.data 0 (lit 0)
      let d ← wr d 1 (lit 0)
      let d ← wr d 2 (lit 0)
      return (0, { a with data := d }, lit 0)
    else do
      let s := CReal.sqrt (lit 1 - n.r * n.r)
      let d ← wr a.data 0 (n.i / s)
      let d ← wr d 1 (n.j / s)
      let d ← wr d 2 (n.k / s)
      return (0, { a with data := d }, lit 2 * CReal.acos n.r)

/-- quaternions.c:674-712 `zsl_quat_from_axis_angle`; `junk` is the content of the local vector. Bounds checks off. -/
def quatFromAxisAngle (junk : Nat → R) (a : Vec R) (b : R) (_q : Quat R) : Out (Int × Quat R) := do
    let a0 ← rd a.data 0
    let a1 ← rd a.data 1
    let a2 ← rd a.data 2
    let norm := CReal.sqrt (a0 * a0 + a1 * a1 + a2 * a2)
    if CReal.lt norm (lit 1e-6) then return (0, ⟨lit 0, lit 0, lit 0, lit 0⟩)
    else do
      let (_, an) ← vecCopy (Vec.uninit junk 3) a
      let (_, an) ← vecScalarDiv an norm
      let n0 ← rd an.data 0
      let n1 ← rd an.data 1
      let n2 ← rd an.data 2
      let s := CReal.sin (b / lit 2)
      return (0, ⟨CReal.cos (b / lit 2), n0 * s, n1 * s, n2 * s⟩)

/-! ### Attitude and compass -/

/-- ahrs.c:83-112 `zsl_att_from_accel`; `junk` is the content of the local vector, `a` the previous attitude. Bounds checks off. -/
def attFromAccel (junk : Nat → R) (accel : Vec R) (_a : Attitude R) : Out (Int × Attitude R) := do
    let (_, u) ← vecCopy (Vec.uninit junk 3) accel
    let (_, u) ← vecToUnit u
    let u0 ← rd u.data 0
    let u1 ← rd u.data 1
    let u2 ← rd u.data 2
    let ss := u1 * u1 + u2 * u2
    return (0, ⟨CReal.atan2 u1 u2 * radToDeg, CReal.atan2 (-u0) (CReal.sqrt ss) * radToDeg, lit 0⟩)

/-- ahrs.c:45-81 `zsl_att_from_accelmag`. Bounds checks off. -/
def attFromAccelmag (junk : Nat → R) (accel mag : Vec R) (_a : Attitude R) : Out (Int × Attitude R) := do
    let (_, m) ← vecCopy (Vec.uninit junk 3) mag
    let (_, m) ← vecToUnit m
    let (_, att) ← attFromAccel junk accel ⟨junk 0, junk 1, junk 2⟩
    let m0 ← rd m.data 0
    let m1 ← rd m.data 1
    let m2 ← rd m.data 2
    let sr := CReal.sin (att.roll * degToRad)
    let cr := CReal.cos (att.roll * degToRad)
    let sp := CReal.sin (att.pitch * degToRad)
    let cp := CReal.cos (att.pitch * degToRad)
    let nom := m2 * sr - m1 * cr
    let den := m0 * cp + sp * (m1 * sr + m2 * cr)
    return (0, ⟨att.roll, att.pitch, CReal.atan2 nom den * radToDeg⟩)

/-- ahrs.c:114-138 `zsl_att_accel_angle`; `b` is the previous value of `*b`, `junk 0` the uninitialised `dot`. Bounds checks off. -/
def attAccelAngle (junk : Nat → R) (a1 a2 : Vec R) (_b : R) : Out (Int × R) := do
    let n1 ← vecNorm a1
    let n2 ← vecNorm a2
    let (_, dot) ← vecDot a1 a2 (junk 0)
    return (0, CReal.acos (dot / (n1 * n2)))

/-- compass.c:13-53 `zsl_comp_dms_to_dd`. Bounds checks off. -/
def compDmsToDd (d m s : R) : Int × R :=
  if CReal.lt d (lit 0) then (0, d - m / lit 60 - s / lit 3600)
  else (0, d + m / lit 60 + s / lit 3600)

/-- compass.c:55-81 `zsl_comp_magn_north`; `d` is the previous value of `*d`. Bounds checks off. -/
def compMagnNorth (m : Vec R) (d : R) : Out (Int × R) := do
    let m1 ← rd m.data 1
    if CReal.lt (CReal.abs m1) (lit 1e-6) then do
      let m0 ← rd m.data 0
      if CReal.gt m0 (lit 0) then return (0, lit 0) else return (0, lit 180)
    else if CReal.gt m1 (lit 0) then do
      let m0 ← rd m.data 0
      return (0, lit 90 - CReal.atan2 m0 m1 * lit 180 / zslPi)
    else if CReal.lt m1 (lit 0) then do
      let m0 ← rd m.data 0
      return (0, lit 270 - CReal.atan2 m0 m1 * lit 180 / zslPi)
    else return (0, d)

/-- compass.c:83-100 `zsl_comp_geo_north`. Bounds checks off. -/
def compGeoNorth (m : Vec R) (dec d : R) : Out (Int × R) := do
    let (_, d) ← compMagnNorth m d
    return (0, d + dec)

/-! ### Probability -/

/-- probability.c:14-28 `zsl_prob_uni_pdf`. Bounds checks off. -/
def probUniPdf (a b x : R) : R :=
  if CReal.ge x a && CReal.le x b then lit 1 / (b - a)
  else lit 0

/-- probability.c:30-42 `zsl_prob_uni_mean`; `m` is the previous value of `*m`. Bounds checks off. -/
def probUniMean (a b _m : R) : Int × R :=
  (0, lit 0.5 * (a + b))

/-- probability.c:44-56 `zsl_prob_uni_var`. Bounds checks off. -/
def probUniVar (a b _v : R) : Int × R :=
  (0, (b - a) * (b - a) / lit 12)

/-- probability.c:58-74 `zsl_prob_uni_cdf`. Bounds checks off. -/
def probUniCdf (a b x : R) : R :=
  if CReal.ge x a && CReal.le x b then (x - a) / (b - a)
  else if CReal.lt x a then lit 0
  else lit 1

/-- probability.c:95-132 `zsl_prob_erf_inv`; the chain of `fma` is folded over the coefficients. Bounds checks off. -/
def probErfInv (x : R) : R :=
    let t := CReal.log (CReal.fma x (lit 0 - x) (lit 1))
    let p := if CReal.gt (CReal.abs t) (lit 6.125) then erfInvTail.foldl (fun p q => CReal.fma p t (lit q)) (lit 3.03697567e-10)
      else erfInvMid.foldl (fun p q => CReal.fma p t (lit q)) (lit 5.43877832e-9)
    x * p

/-- probability.c:134-149 `zsl_prob_normal_cdf_inv`. Bounds checks off. -/
def probNormalCdfInv (m s p : R) : R :=
    let x := lit 2 * p - lit 1
    m + s * CReal.sqrt (lit 2) * probErfInv x

/-- probability.c:168-187 `zsl_prob_binomial_coef`; `c` is the previous value of `*c`. Bounds checks off. -/
def probBinomialCoef (n k _c : Int) : Out (Int × Int) :=
  if k > n ∨ k < 0 then ok (0, 0)
  else do
    let kn ← toInt (n - k)
    let fn ← probFactorial n
    let fk ← probFactorial k
    let fkn ← probFactorial kn
    let d ← toInt (fk * fkn)
    if d = 0 then ub
    else return (0, fn.tdiv d)

/-- probability.c:202-205 and 266-267: one value of the probability function; `c0` is the content of the uninitialised local `c`. Bounds checks off. -/
def binomTerm (c0 n : Int) (p : R) (x : Int) : Out R := do
  let (_, c) ← probBinomialCoef n x c0
  let e ← toInt (n - x)
  return CReal.ofInt c * CReal.pow p (CReal.ofInt x) * CReal.pow (lit 1 - p) (CReal.ofInt e)

/-- probability.c:189-206 `zsl_prob_binomial_pdf`. Bounds checks off. -/
def probBinomialPdf (c0 n : Int) (p : R) (x : Int) : Out R :=
  binomTerm c0 n p x

/-- probability.c:208-224 `zsl_prob_binomial_mean`. Bounds checks off. -/
def probBinomialMean (n : Int) (p _m : R) : Int × R :=
  (0, CReal.ofInt n * p)

/-- probability.c:226-242 `zsl_prob_binomial_var`. Bounds checks off. -/
def probBinomialVar (n : Int) (p _v : R) : Int × R :=
  (0, CReal.ofInt n * p * (lit 1 - p))

/-- probability.c:244-272 `zsl_prob_binomial_cdf`. Simplification: the overflow of the loop counter for `x = INT_MAX` is not modelled. Bounds checks off. -/
def probBinomialCdf (c0 n : Int) (p : R) (x : Int) : Out R :=
  if x < 0 then ok (lit 0)
  else do
    let (y, _) ← forN (x.toNat + 1) (fun i (s : R × Int) => do
      let (_, c) ← probBinomialCoef n i s.2
      let e ← toInt (n - i)
      return (s.1 + CReal.ofInt c * CReal.pow p (CReal.ofInt i) * CReal.pow (lit 1 - p) (CReal.ofInt e), c)) (lit 0, c0)
    return y

/-- probability.c:274-299 `zsl_prob_entropy`. Bounds checks off. -/
def probEntropy (v : Vec R) (_h : R) : Out (Int × R) := do
  let h ← forN v.sz (fun i h => do
    let a ← rd v.data i
    return h - a * CReal.log a) (lit 0)
  return (0, h / CReal.log (lit 2))

/-- probability.c:301-321 `zsl_prob_bayes`. Bounds checks off. -/
def probBayes (pa pb pba _pab : R) : Int × R := (0, (pba * pa) / pb)

/-! ### Centre of mass -/

/-- physics/mass.c:13-81 `zsl_phy_mass_center`. Bounds checks off. -/
def phyMassCenter (m x y z : Vec R) (mx my mz : R) : Out (Int × R × R × R) := do
    let (rc, mtx) ← vecDot m x (lit 0)
    if rc ≠ 0 then return (-EINVAL, mx, my, mz)
    let (rc, mty) ← vecDot m y (lit 0)
    if rc ≠ 0 then return (-EINVAL, mx, my, mz)
    let (rc, mtz) ← vecDot m z (lit 0)
    if rc ≠ 0 then return (-EINVAL, mx, my, mz)
    let (rc, mt) ← vecArMean m (lit 0)
    if rc ≠ 0 then return (-EINVAL, mx, my, mz)
    let nn ← vecIsNonneg m
    if nn = false then return (-EINVAL, CReal.nan, CReal.nan, CReal.nan)
    let mt := mt * CReal.ofNat m.sz
    if CReal.eq mt (lit 0) then return (-EINVAL, CReal.nan, CReal.nan, CReal.nan)
    return (0, mtx / mt, mty / mt, mtz / mt)

end Verif.NoChk
