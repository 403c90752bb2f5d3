import Verif.Model.Matrices

/-!
# Model of src/orientation/quaternions.c and src/orientation/euler.c

Quaternions are values. The functions whose output may be one of their inputs are modelled a second time, on a memory of quaternions
(`...Mem`), one store per assignment of the C code; the theorems relate the two. Bounds checks are compiled in. The functions
that print are in `Model/Print.lean`.
-/

namespace Verif

open Out

variable {R : Type} [CReal R]

/-- quaternions.h:89-105 `struct zsl_quat`. -/
structure Quat (R : Type) where
  r : R
  i : R
  j : R
  k : R

/-- euler.h:43-53 `struct zsl_euler`. -/
structure Euler (R : Type) where
  x : R
  y : R
  z : R

/-- quaternions.c:24-36 `zsl_quat_val_is_equal`. -/
def quatValIsEqual (a b eps : R) : Bool := CReal.lt (CReal.abs (a - b)) eps

/-- quaternions.c:38-54 `zsl_quat_init` with `ZSL_QUAT_TYPE_EMPTY`. -/
def quatEmpty : Quat R := ⟨lit 0, lit 0, lit 0, lit 0⟩

/-- quaternions.c:38-54 `zsl_quat_init` with `ZSL_QUAT_TYPE_IDENTITY`. -/
def quatIdentity : Quat R := ⟨lit 1, lit 0, lit 0, lit 0⟩

/-- quaternions.c:57-60 `zsl_quat_magn`. -/
def quatMagn (q : Quat R) : R := CReal.sqrt (q.r * q.r + q.i * q.i + q.j * q.j + q.k * q.k)

/-- quaternions.c:62-80 `zsl_quat_to_unit`; the return code is 0. -/
def quatToUnit (q : Quat R) : Quat R :=
  let m := quatMagn q
  if CReal.lt (CReal.abs m) (lit 1e-6) then ⟨lit 0, lit 0, lit 0, lit 0⟩
  else ⟨q.r / m, q.i / m, q.j / m, q.k / m⟩

/-- quaternions.c:87-99 `zsl_quat_is_unit`. -/
def quatIsUnit (q : Quat R) : Bool :=
  quatValIsEqual (CReal.sqrt (q.r * q.r + q.i * q.i + q.j * q.j + q.k * q.k)) (lit 1) (lit 1e-6)

/-- quaternions.c:101-111 `zsl_quat_scale`. -/
def quatScale (q : Quat R) (s : R) : Quat R := ⟨q.r * s, q.i * s, q.j * s, q.k * s⟩

/-- quaternions.c:118-143 `zsl_quat_mult`. -/
def quatMult (a b : Quat R) : Quat R :=
  ⟨a.r * b.r - a.i * b.i - a.j * b.j - a.k * b.k,
   a.r * b.i + a.i * b.r + a.j * b.k - a.k * b.j,
   a.r * b.j - a.i * b.k + a.j * b.r + a.k * b.i,
   a.r * b.k + a.i * b.j - a.j * b.i + a.k * b.r⟩

/-- quaternions.c:145-174 `zsl_quat_exp`. -/
def quatExp (q : Quat R) : Out (Quat R) := do
  let v : Vec R := ⟨3, [q.i, q.j, q.k]⟩
  let vmag ← vecNorm v
  let (_, v) ← vecToUnit v
  let vsin := CReal.sin vmag
  let rexp := CReal.exp q.r
  let v0 ← rd v.data 0
  let v1 ← rd v.data 1
  let v2 ← rd v.data 2
  return ⟨CReal.cos vmag * rexp, v0 * vsin * rexp, v1 * vsin * rexp, v2 * vsin * rexp⟩

/-- quaternions.c:176-203 `zsl_quat_log`. -/
def quatLog (q : Quat R) : Out (Quat R) := do
  let (_, v) ← vecToUnit (⟨3, [q.i, q.j, q.k]⟩ : Vec R)
  let qmag := quatMagn q
  let racos := CReal.acos (q.r / qmag)
  let v0 ← rd v.data 0
  let v1 ← rd v.data 1
  let v2 ← rd v.data 2
  return ⟨CReal.log qmag, v0 * racos, v1 * racos, v2 * racos⟩

/-- quaternions.c:205-231 `zsl_quat_pow`; none of the functions it calls fails. -/
def quatPow (q : Quat R) (e : R) : Out (Quat R) := do
  let l ← quatLog q
  quatExp (quatScale l e)

/-- quaternions.c:233-244 `zsl_quat_conj`. -/
def quatConj (q : Quat R) : Quat R := ⟨q.r, q.i * lit (-1), q.j * lit (-1), q.k * lit (-1)⟩

/-- quaternions.c:246-264 `zsl_quat_inv`. -/
def quatInv (q : Quat R) : Quat R :=
  let m := quatMagn q
  if CReal.lt (CReal.abs m) (lit 1e-6) then quatEmpty
  else
    let m := m * m
    ⟨q.r / m, q.i / -m, q.j / -m, q.k / -m⟩

/-- quaternions.c:271-287 `zsl_quat_diff`. -/
def quatDiff (qa qb : Quat R) : Quat R := quatMult (quatInv qa) qb

/-- quaternions.c:289-313 `zsl_quat_rot`; `qr` is the previous value of `*qr`. -/
def quatRot (qa qb qr : Quat R) : Int × Quat R :=
  if CReal.gt (CReal.abs qb.r) (lit 1e-6) then (-EINVAL, qr)
  else
    let qn := quatToUnit qa
    let qm := quatMult qn qb
    let qi := quatInv qn
    (0, quatMult qm qi)

/-- Component-wise sum, as in quaternions.c:341-344, 438-441 and 474-477. -/
def quatSum (a b : Quat R) : Quat R := ⟨a.r + b.r, a.i + b.i, a.j + b.j, a.k + b.k⟩

/-- quaternions.c:315-353 `zsl_quat_lerp`; `qi` is the previous value of `*qi`. -/
def quatLerp (qa qb : Quat R) (t : R) (qi : Quat R) : Int × Quat R :=
  if CReal.lt t (lit 0) || CReal.gt t (lit 1) then (-EINVAL, qi)
  else
    let q1 := quatScale (quatToUnit qa) (lit 1 - t)
    let q2 := quatScale (quatToUnit qb) t
    (0, quatToUnit (quatSum q1 q2))

/-- quaternions.c:355-445 `zsl_quat_slerp`. -/
def quatSlerp (qa qb : Quat R) (t : R) (qi : Quat R) : Int × Quat R :=
  if CReal.lt t (lit 0) || CReal.gt t (lit 1) then (-EINVAL, qi)
  else
    let a := quatToUnit qa
    let b := quatToUnit qb
    if CReal.eq t (lit 0) then (0, a)
    else if CReal.eq t (lit 1) then (0, b)
    else
      let dot := a.r * b.r + a.i * b.i + a.j * b.j + a.k * b.k
      if CReal.lt (CReal.abs (dot - lit 1)) (lit 1e-6) then (0, a)
      else if CReal.lt (CReal.abs (dot + lit 1)) (lit 1e-6) then (-EINVAL, qi)
      else
        let phi := CReal.acos dot
        let phiS := CReal.sin phi
        let phiSt := CReal.sin (phi * t)
        let phiSmt := CReal.sin (phi * (lit 1 - t))
        (0, quatSum (quatScale a (phiSmt / phiS)) (quatScale b (phiSt / phiS)))

/-- quaternions.c:447-485 `zsl_quat_from_ang_vel`. -/
def quatFromAngVel (w : Vec R) (qin : Quat R) (t : R) (qout : Quat R) : Out (Int × Quat R) :=
  if w.sz ≠ 3 ∨ CReal.lt t (lit 0) = true then ok (-EINVAL, qout)
  else do
    let w0 ← rd w.data 0
    let w1 ← rd w.data 1
    let w2 ← rd w.data 2
    let qin2 := quatToUnit qin
    let wq := quatScale (quatMult ⟨lit 0, w0, w1, w2⟩ qin2) (lit 0.5 * t)
    return (0, quatToUnit (quatSum qin2 wq))

/-- quaternions.c:487-510 `zsl_quat_from_ang_mom`; `junk` is the content of the local vector. -/
def quatFromAngMom (junk : Nat → R) (l : Vec R) (qin : Quat R) (i t : R) (qout : Quat R) : Out (Int × Quat R) :=
  if l.sz ≠ 3 ∨ CReal.lt t (lit 0) = true ∨ CReal.le i (lit 0) = true then ok (-EINVAL, qout)
  else do
    let (_, w) ← vecCopy (Vec.uninit junk 3) l
    let (_, w) ← vecScalarDiv w i
    let (_, qout) ← quatFromAngVel w qin t qout
    return (0, qout)

/-- quaternions.c:512-543 `zsl_quat_to_euler`. -/
def quatToEuler (q : Quat R) : Euler R :=
  let n := quatToUnit q
  let gl := n.i * n.k + n.j * n.r
  let v := lit 2 * gl
  let v := if CReal.gt v (lit 1) then lit 1 else if CReal.lt v (lit (-1)) then lit (-1) else v
  let y := CReal.asin v
  if CReal.lt (CReal.abs (gl - lit 0.5)) (lit 1e-6) || CReal.lt (CReal.abs (gl + lit 0.5)) (lit 1e-6) then
    ⟨CReal.atan2 (lit 2 * (n.j * n.k + n.i * n.r)) (lit 1 - lit 2 * (n.i * n.i + n.k * n.k)), y, lit 0⟩
  else
    ⟨CReal.atan2 (lit 2 * (n.i * n.r - n.j * n.k)) (lit 1 - lit 2 * (n.i * n.i + n.j * n.j)), y,
     CReal.atan2 (lit 2 * (n.k * n.r - n.i * n.j)) (lit 1 - lit 2 * (n.j * n.j + n.k * n.k))⟩

/-- quaternions.c:545-562 `zsl_quat_from_euler`. -/
def quatFromEuler (e : Euler R) : Quat R :=
  let rc := CReal.cos (e.x * lit 0.5)
  let rs := CReal.sin (e.x * lit 0.5)
  let pc := CReal.cos (e.y * lit 0.5)
  let ps := CReal.sin (e.y * lit 0.5)
  let yc := CReal.cos (e.z * lit 0.5)
  let ys := CReal.sin (e.z * lit 0.5)
  ⟨rc * pc * yc - rs * ps * ys, rs * pc * yc + rc * ps * ys, rc * ps * yc - rs * pc * ys, rc * pc * ys + rs * ps * yc⟩

/-- quaternions.c:564-597 `zsl_quat_to_rot_mtx`. The quaternion is not normalised. -/
def quatToRotMtx (q : Quat R) (m : Mtx R) : Out (Int × Mtx R) :=
  if m.cols ≠ 3 ∨ m.rows ≠ 3 then ok (-EINVAL, m)
  else do
    let (_, m) ← mtxSet m 0 0 (lit 1 - lit 2 * (q.j * q.j + q.k * q.k))
    let (_, m) ← mtxSet m 0 1 (lit 2 * (q.i * q.j - q.k * q.r))
    let (_, m) ← mtxSet m 0 2 (lit 2 * (q.i * q.k + q.j * q.r))
    let (_, m) ← mtxSet m 1 0 (lit 2 * (q.i * q.j + q.k * q.r))
    let (_, m) ← mtxSet m 1 1 (lit 1 - lit 2 * (q.i * q.i + q.k * q.k))
    let (_, m) ← mtxSet m 1 2 (lit 2 * (q.j * q.k - q.i * q.r))
    let (_, m) ← mtxSet m 2 0 (lit 2 * (q.i * q.k - q.j * q.r))
    let (_, m) ← mtxSet m 2 1 (lit 2 * (q.j * q.k + q.i * q.r))
    let (_, m) ← mtxSet m 2 2 (lit 1 - lit 2 * (q.i * q.i + q.j * q.j))
    return (0, m)

/-- quaternions.c:617-630, `if (ABS(a - b) > 1E-6) x *= (a - b) / ABS(a - b);`. -/
def signedBy (x a b : R) : R :=
  if CReal.gt (CReal.abs (a - b)) (lit 1e-6) then x * ((a - b) / CReal.abs (a - b)) else x

/-- quaternions.c:599-636 `zsl_quat_from_rot_mtx`. -/
def quatFromRotMtx (m : Mtx R) (q : Quat R) : Out (Int × Quat R) :=
  if m.cols ≠ 3 ∨ m.rows ≠ 3 then ok (-EINVAL, q)
  else do
    let m0 ← rd m.data 0
    let m1 ← rd m.data 1
    let m2 ← rd m.data 2
    let m3 ← rd m.data 3
    let m4 ← rd m.data 4
    let m5 ← rd m.data 5
    let m6 ← rd m.data 6
    let m7 ← rd m.data 7
    let m8 ← rd m.data 8
    let r := lit 0.5 * CReal.sqrt (m0 + m4 + m8 + lit 1)
    let i := lit 0.5 * CReal.sqrt (m0 - m4 - m8 + lit 1)
    let j := lit 0.5 * CReal.sqrt (-m0 + m4 - m8 + lit 1)
    let k := lit 0.5 * CReal.sqrt (-m0 - m4 + m8 + lit 1)
    return (0, ⟨r, signedBy i m7 m5, signedBy j m2 m6, signedBy k m3 m1⟩)

/-- quaternions.c:638-672 `zsl_quat_to_axis_angle`; returns the axis and the angle. -/
def quatToAxisAngle (q : Quat R) (a : Vec R) (b : R) : Out (Int × Vec R × R) :=
  if a.sz ≠ 3 then ok (-EINVAL, a, b)
  else do
    let n := quatToUnit q
    if CReal.lt (CReal.abs (n.r - lit 1)) (lit 1e-6) then do
      let d ← wr a.data 0 (lit 0)
      let d ← wr d 1 (lit 0)
      let d ← wr d 2 (lit 0)
      return (0, { a with data := d }, lit 0)
    else do
      let s := CReal.sqrt (lit 1 - n.r * n.r)
      let d ← wr a.data 0 (n.i / s)
      let d ← wr d 1 (n.j / s)
      let d ← wr d 2 (n.k / s)
      return (0, { a with data := d }, lit 2 * CReal.acos n.r)

/-- quaternions.c:674-712 `zsl_quat_from_axis_angle`; `junk` is the content of the local vector. -/
def quatFromAxisAngle (junk : Nat → R) (a : Vec R) (b : R) (q : Quat R) : Out (Int × Quat R) :=
  if a.sz ≠ 3 then ok (-EINVAL, q)
  else do
    let a0 ← rd a.data 0
    let a1 ← rd a.data 1
    let a2 ← rd a.data 2
    let norm := CReal.sqrt (a0 * a0 + a1 * a1 + a2 * a2)
    if CReal.lt norm (lit 1e-6) then return (0, ⟨lit 0, lit 0, lit 0, lit 0⟩)
    else do
      let (_, an) ← vecCopy (Vec.uninit junk 3) a
      let (_, an) ← vecScalarDiv an norm
      let n0 ← rd an.data 0
      let n1 ← rd an.data 1
      let n2 ← rd an.data 2
      let s := CReal.sin (b / lit 2)
      return (0, ⟨CReal.cos (b / lit 2), n0 * s, n1 * s, n2 * s⟩)

/-! ### The same on a memory of quaternions -/

/-- A memory of quaternions; pointers are natural numbers. For the functions with pointer arguments of quaternions.c:20-720. -/
abbrev QMem (R : Type) := Nat → Quat R

/-- `p->r = x` For example quaternions.c:41-53. -/
def QMem.setR (mem : QMem R) (p : Nat) (x : R) : QMem R := Function.update mem p { mem p with r := x }

/-- `p->i = x` For example quaternions.c:41-53. -/
def QMem.setI (mem : QMem R) (p : Nat) (x : R) : QMem R := Function.update mem p { mem p with i := x }

/-- `p->j = x` For example quaternions.c:41-53. -/
def QMem.setJ (mem : QMem R) (p : Nat) (x : R) : QMem R := Function.update mem p { mem p with j := x }

/-- `p->k = x` For example quaternions.c:41-53. -/
def QMem.setK (mem : QMem R) (p : Nat) (x : R) : QMem R := Function.update mem p { mem p with k := x }

/-- quaternions.c:118-143 `zsl_quat_mult(qa, qb, qm)` on pointers. -/
def quatMultMem (mem : QMem R) (qa qb qm : Nat) : QMem R :=
  let qac := mem qa
  let qbc := mem qb
  let mem := mem.setI qm (qac.r * qbc.i + qac.i * qbc.r + qac.j * qbc.k - qac.k * qbc.j)
  let mem := mem.setJ qm (qac.r * qbc.j - qac.i * qbc.k + qac.j * qbc.r + qac.k * qbc.i)
  let mem := mem.setK qm (qac.r * qbc.k + qac.i * qbc.j - qac.j * qbc.i + qac.k * qbc.r)
  mem.setR qm (qac.r * qbc.r - qac.i * qbc.i - qac.j * qbc.j - qac.k * qbc.k)

/-- quaternions.c:62-85 `zsl_quat_to_unit(q, qn)` on pointers; `zsl_quat_to_unit_d(q)` is the call with `qn = q`. -/
def quatToUnitMem (mem : QMem R) (q qn : Nat) : QMem R :=
  let m := quatMagn (mem q)
  if CReal.lt (CReal.abs m) (lit 1e-6) then
    let mem := mem.setR qn (lit 0)
    let mem := mem.setI qn (lit 0)
    let mem := mem.setJ qn (lit 0)
    mem.setK qn (lit 0)
  else
    let mem := mem.setR qn ((mem q).r / m)
    let mem := mem.setI qn ((mem q).i / m)
    let mem := mem.setJ qn ((mem q).j / m)
    mem.setK qn ((mem q).k / m)

/-- quaternions.c:246-269 `zsl_quat_inv(q, qi)` on pointers; `zsl_quat_inv_d(q)` is the call with `qi = q`. -/
def quatInvMem (mem : QMem R) (q qi : Nat) : QMem R :=
  let m := quatMagn (mem q)
  if CReal.lt (CReal.abs m) (lit 1e-6) then
    let mem := mem.setR qi (lit 0)
    let mem := mem.setI qi (lit 0)
    let mem := mem.setJ qi (lit 0)
    mem.setK qi (lit 0)
  else
    let m := m * m
    let mem := mem.setR qi ((mem q).r / m)
    let mem := mem.setI qi ((mem q).i / -m)
    let mem := mem.setJ qi ((mem q).j / -m)
    mem.setK qi ((mem q).k / -m)

/-- quaternions.c:101-116 `zsl_quat_scale(q, s, qs)` on pointers; `zsl_quat_scale_d(q, s)` is the call with `qs = q`. -/
def quatScaleMem (mem : QMem R) (q : Nat) (s : R) (qs : Nat) : QMem R :=
  let mem := mem.setR qs ((mem q).r * s)
  let mem := mem.setI qs ((mem q).i * s)
  let mem := mem.setJ qs ((mem q).j * s)
  mem.setK qs ((mem q).k * s)

end Verif
