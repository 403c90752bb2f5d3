import Verif.Model.Attitude

/-!
# Model of src/orientation/fusion: mahony.c, madgwick.c, complementary.c, saam.c, aqua.c, kalman.c, calibration.c

Bounds checks are compiled in. A pointer that may be NULL is an `Option`. The sample frequency, a static variable of each file,
is a parameter (`0` before the first successful `init`). A feed returns the code and the new values of everything it can reach: the
sensor vectors (which the filters normalise or modify in place), the configuration and the quaternion. `junk` is the content of
uninitialised locals. The `*_error` handlers do nothing and are not modelled.
-/

namespace Verif

open Out

variable {R : Type} [CReal R]

/-- The three sensor vectors of a feed. fusion.h:61-80 (`zsl_fus_feed_cb_t`). -/
structure Sens (R : Type) where
  a : Option (Vec R)
  m : Option (Vec R)
  g : Vec R

/-- mahony.c:268-288, madgwick.c:283-303, complementary.c:79-99, saam.c:63-80, aqua.c:175-195, kalman.c:285-305: the `init` functions.
`old` is the previous frequency. -/
def fusInit (freq old : Nat) : Int × Nat := if freq ≤ 0 then (-EINVAL, old) else (0, freq)

/-- `v != NULL && v->sz != 3`. For example aqua.c:24. -/
def badSize (v : Option (Vec R)) : Bool :=
  match v with
  | none => false
  | some v => decide (v.sz ≠ 3)

/-- `v != NULL && ZSL_ABS(zsl_vec_norm(v)) > 1E-6`. For example mahony.c:39. -/
def sensValid (v : Option (Vec R)) : Out Bool :=
  match v with
  | none => ok false
  | some v => do
    let n ← vecNorm v
    return CReal.gt (CReal.abs n) (lit 1e-6)

/-- `v == NULL || ZSL_ABS(zsl_vec_norm(v)) < 1E-6`. For example mahony.c:136. -/
def sensMissing (v : Option (Vec R)) : Out Bool :=
  match v with
  | none => ok true
  | some v => do
    let n ← vecNorm v
    return CReal.lt (CReal.abs n) (lit 1e-6)

/-- `zsl_vec_to_unit(v)` for a pointer already checked against NULL; NULL is undefined behaviour. For example mahony.c:145. -/
def unitP (v : Option (Vec R)) : Out (Vec R) :=
  match v with
  | none => ub
  | some v => do
    let (_, v) ← vecToUnit v
    return v

/-- `ZSL_ABS(zsl_quat_magn(q)) < 1E-6`. For example mahony.c:31. -/
def quatIsZero (q : Quat R) : Bool := CReal.lt (CReal.abs (quatMagn q)) (lit 1e-6)

/-- The pure quaternion `{ .r = 0.0, .i = v[0], .j = v[1], .k = v[2] }`. For example aqua.c:52-57. -/
def quatOfVec (v : Vec R) : Out (Quat R) := do
  let v0 ← rd v.data 0
  let v1 ← rd v.data 1
  let v2 ← rd v.data 2
  return ⟨lit 0, v0, v1, v2⟩

/-- The content of an uninitialised `struct zsl_quat`. For example mahony.c:57. -/
def quatJunk (junk : Nat → R) : Quat R := ⟨junk 0, junk 1, junk 2, junk 3⟩

/-- `v.data[i] += x`. For example mahony.c:69-71. -/
def addAt (v : Vec R) (i : Nat) (x : R) : Out (Vec R) := do
  let y ← rd v.data i
  let d ← wr v.data i (y + x)
  return { v with data := d }

/-- mahony.c:74-78: `if (v[i] > limit) v[i] = limit; else if (v[i] < -limit) v[i] = -limit;`. -/
def clampAt (v : Vec R) (i : Nat) (limit : R) : Out (Vec R) := do
  let y ← rd v.data i
  if CReal.gt y limit then do
    let d ← wr v.data i limit
    return { v with data := d }
  else if CReal.lt y (-limit) then do
    let d ← wr v.data i (-limit)
    return { v with data := d }
  else return v

/-! ### Mahony -/

/-- mahony.h:40-61 `struct zsl_fus_mahn_cfg`. -/
structure MahnCfg (R : Type) where
  kp : R
  ki : R
  limit : R
  intfb : Vec R

/-- mahony.c:68-100 and 222-254: integral and proportional feedback of the error `e`; returns the feedback and the rate. -/
def mahnFeedback (freq : Nat) (c : MahnCfg R) (e g : Vec R) : Out (Vec R × Vec R) := do
  let e0 ← rd e.data 0
  let e1 ← rd e.data 1
  let e2 ← rd e.data 2
  let dt := lit 1 / CReal.ofNat freq
  let fb ← addAt c.intfb 0 (e0 * dt)
  let fb ← addAt fb 1 (e1 * dt)
  let fb ← addAt fb 2 (e2 * dt)
  let fb ← clampAt fb 0 c.limit
  let fb ← clampAt fb 1 c.limit
  let fb ← clampAt fb 2 c.limit
  let f0 ← rd fb.data 0
  let f1 ← rd fb.data 1
  let f2 ← rd fb.data 2
  let g ← addAt g 0 (c.ki * f0)
  let g ← addAt g 1 (c.ki * f1)
  let g ← addAt g 2 (c.ki * f2)
  let g ← addAt g 0 (c.kp * e0)
  let g ← addAt g 1 (c.kp * e1)
  let g ← addAt g 2 (c.kp * e2)
  return (fb, g)

/-- mahony.c:44-66 and 150-172: the cross product of the measured direction `a` with `b` rotated by `q`. -/
def fusCrossError (junk : Nat → R) (q b : Quat R) (a : Vec R) : Out (Vec R) := do
  let v := (quatRot q b (quatJunk junk)).2
  let (_, e) ← vecCross a ⟨3, [v.i, v.j, v.k]⟩ (Vec.uninit junk 3)
  return e

/-- mahony.c:152-157: the vertical unit quaternion. -/
def quatUp : Quat R := ⟨lit 0, lit 0, lit 0, lit 1⟩

/-- mahony.c:182-199 and madgwick.c:201-218: the horizontal and vertical components of the magnetic field. -/
def fusEarthField (junk : Nat → R) (incl : Option R) (q qm : Quat R) : R × R :=
  match incl with
  | none =>
    let h := (quatRot q qm (quatJunk junk)).2
    (CReal.sqrt (h.i * h.i + h.j * h.j), h.k)
  | some x => (CReal.cos (x * zslPi / lit 180), CReal.sin (x * zslPi / lit 180))

/-- mahony.c:105-108 and 257-262: quaternion integration and normalisation. -/
def fusIntegrate (freq : Nat) (g : Vec R) (q : Quat R) : Out (Quat R) := do
  let (_, q) ← quatFromAngVel g q (lit 1 / CReal.ofNat freq) q
  return quatToUnit q

/-- mahony.c:15-112 `zsl_fus_mahony_imu`. Returns the code, the sensors, the integral feedback and the quaternion. -/
def fusMahonyImu (junk : Nat → R) (freq : Nat) (s : Sens R) (c : MahnCfg R) (q : Quat R) :
    Out (Int × Sens R × Vec R × Quat R) :=
  if badSize s.a = true ∨ s.g.sz ≠ 3 ∨ c.intfb.sz ≠ 3 then ok (-EINVAL, s, c.intfb, q)
  else if quatIsZero q then ok (-EINVAL, s, c.intfb, q)
  else do
    let valid ← sensValid s.a
    if valid then do
      let a ← unitP s.a
      let e ← fusCrossError junk q quatUp a
      let (fb, g) ← mahnFeedback freq c e s.g
      let q ← fusIntegrate freq g q
      return (0, { s with a := some a, g := g }, fb, q)
    else do
      let q ← fusIntegrate freq s.g q
      return (0, s, c.intfb, q)

/-- mahony.c:114-266 `zsl_fus_mahony`. -/
def fusMahony (junk : Nat → R) (freq : Nat) (incl : Option R) (s : Sens R) (c : MahnCfg R) (q : Quat R) :
    Out (Int × Sens R × Vec R × Quat R) :=
  if badSize s.a = true ∨ badSize s.m = true ∨ s.g.sz ≠ 3 ∨ c.intfb.sz ≠ 3 then ok (-EINVAL, s, c.intfb, q)
  else if quatIsZero q then ok (-EINVAL, s, c.intfb, q)
  else do
    let missing ← sensMissing s.m
    if missing then fusMahonyImu junk freq s c q
    else do
      let valid ← sensValid s.a
      if valid then do
        let a ← unitP s.a
        let m ← unitP s.m
        let eg ← fusCrossError junk q quatUp a
        let qm ← quatOfVec m
        let (bx, bz) := fusEarthField junk incl q qm
        let eb ← fusCrossError junk q ⟨lit 0, bx, lit 0, bz⟩ m
        let (_, e) ← vecAdd eg eb (Vec.uninit junk 3)
        let (fb, g) ← mahnFeedback freq c e s.g
        let q ← fusIntegrate freq g q
        return (0, ⟨some a, some m, g⟩, fb, q)
      else do
        let q ← fusIntegrate freq s.g q
        return (0, s, c.intfb, q)

/-- mahony.c:290-301 `zsl_fus_mahn_feed`. Returns the code, the sensors, the configuration and the quaternion. -/
def fusMahnFeed (junk : Nat → R) (freq : Nat) (incl : Option R) (s : Sens R) (c : MahnCfg R) (q : Quat R) :
    Out (Int × Sens R × MahnCfg R × Quat R) :=
  if CReal.lt c.kp (lit 0) || CReal.lt c.ki (lit 0) then ok (-EINVAL, s, c, q)
  else do
    let (rc, s, fb, q) ← fusMahony junk freq incl s c q
    return (rc, s, { c with intfb := fb }, q)

/-! ### Madgwick -/

/-- madgwick.c:48-65 and 159-174: `b` rotated by `q`, minus the measured direction, as a column. -/
def madgResidual (junk : Nat → R) (q b : Quat R) (a : Vec R) : Out (Mtx R) := do
  let v := (quatRot q b (quatJunk junk)).2
  let a0 ← rd a.data 0
  let a1 ← rd a.data 1
  let a2 ← rd a.data 2
  return ⟨3, 1, [v.i - a0, v.j - a1, v.k - a2]⟩

/-- madgwick.c:70-75 and 179-184: the transposed Jacobian of the gravity residual. -/
def madgJacG (q : Quat R) : List R :=
  [lit (-2) * q.j, lit 2 * q.i, lit 0,
   lit 2 * q.k, lit 2 * q.r, lit (-4) * q.i,
   lit (-2) * q.r, lit 2 * q.k, lit (-4) * q.j,
   lit 2 * q.i, lit 2 * q.j, lit 0]

/-- madgwick.c:233-250: the transposed Jacobian of the magnetic residual. -/
def madgJacB (bx bz : R) (q : Quat R) : List R :=
  [lit (-2) * bz * q.j,
   lit (-2) * bx * q.k + lit 2 * bz * q.i,
   lit 2 * bx * q.j,
   lit 2 * bz * q.k,
   lit 2 * bz * q.j + lit 2 * bz * q.r,
   lit 2 * bx * q.k - lit 4 * bz * q.i,
   lit (-4) * bx * q.j - lit 2 * bz * q.r,
   lit 2 * bx * q.i - lit 2 * bz * q.k,
   lit 2 * bx * q.r - lit 2 * bz * q.j,
   lit (-4) * bx * q.k + lit 2 * bz * q.i,
   lit (-2) * bx * q.r + lit 2 * bz * q.j,
   lit 2 * bx * q.i]

/-- madgwick.c:69-82: transposed Jacobian (as an array) times the residual. -/
def madgGrad (junk : Nat → R) (jac : List R) (f : Mtx R) : Out (Mtx R) := do
  let (_, jt) ← mtxFromArr (Mtx.uninit junk 4 3) jac
  let (_, jtf) ← mtxMult jt f (Mtx.uninit junk 4 1)
  return jtf

/-- madgwick.c:89-97 and 269-277: integration, the step along the gradient, normalisation. -/
def madgUpdate (freq : Nat) (beta : R) (g grad : Vec R) (q : Quat R) : Out (Quat R) := do
  let dt := lit 1 / CReal.ofNat freq
  let (_, q) ← quatFromAngVel g q dt q
  let d0 ← rd grad.data 0
  let d1 ← rd grad.data 1
  let d2 ← rd grad.data 2
  let d3 ← rd grad.data 3
  return quatToUnit ⟨q.r - dt * (beta * d0), q.i - dt * (beta * d1), q.j - dt * (beta * d2), q.k - dt * (beta * d3)⟩

/-- madgwick.c:15-101 `zsl_fus_madgwick_imu`. -/
def fusMadgwickImu (junk : Nat → R) (freq : Nat) (beta : R) (s : Sens R) (q : Quat R) : Out (Int × Sens R × Quat R) :=
  if badSize s.a = true ∨ s.g.sz ≠ 3 then ok (-EINVAL, s, q)
  else if quatIsZero q then ok (-EINVAL, s, q)
  else do
    let q := quatToUnit q
    let (_, grad) ← vecInit (Vec.uninit junk 4)
    let valid ← sensValid s.a
    if valid then do
      let a ← unitP s.a
      let f ← madgResidual junk q quatUp a
      let jtf ← madgGrad junk (madgJacG q) f
      let (_, grad) ← vecFromArr grad jtf.data
      let (_, grad) ← vecToUnit grad
      let q ← madgUpdate freq beta s.g grad q
      return (0, { s with a := some a }, q)
    else do
      let q ← madgUpdate freq beta s.g grad q
      return (0, s, q)

/-- madgwick.c:114-281 `zsl_fus_madgwick`. -/
def fusMadgwick (junk : Nat → R) (freq : Nat) (incl : Option R) (beta : R) (s : Sens R) (q : Quat R) :
    Out (Int × Sens R × Quat R) :=
  if badSize s.a = true ∨ badSize s.m = true ∨ s.g.sz ≠ 3 then ok (-EINVAL, s, q)
  else if quatIsZero q then ok (-EINVAL, s, q)
  else do
    let missing ← sensMissing s.m
    if missing then fusMadgwickImu junk freq beta s q
    else do
      let q := quatToUnit q
      let (_, grad) ← vecInit (Vec.uninit junk 4)
      let valid ← sensValid s.a
      if valid then do
        let a ← unitP s.a
        let m ← unitP s.m
        let fg ← madgResidual junk q quatUp a
        let jg ← madgGrad junk (madgJacG q) fg
        let qm ← quatOfVec m
        let (bx, bz) := fusEarthField junk incl q qm
        let fb ← madgResidual junk q ⟨lit 0, bx, lit 0, bz⟩ m
        let jb ← madgGrad junk (madgJacB bx bz q) fb
        let g0 ← rd jg.data 0
        let g1 ← rd jg.data 1
        let g2 ← rd jg.data 2
        let g3 ← rd jg.data 3
        let b0 ← rd jb.data 0
        let b1 ← rd jb.data 1
        let b2 ← rd jb.data 2
        let b3 ← rd jb.data 3
        let d ← wr grad.data 0 (g0 + b0)
        let d ← wr d 1 (g1 + b1)
        let d ← wr d 2 (g2 + b2)
        let d ← wr d 3 (g3 + b3)
        let (_, grad) ← vecToUnit { grad with data := d }
        let q ← madgUpdate freq beta s.g grad q
        return (0, { s with a := some a, m := some m }, q)
      else do
        let q ← madgUpdate freq beta s.g grad q
        return (0, s, q)

/-- madgwick.c:305-316 `zsl_fus_madg_feed`. -/
def fusMadgFeed (junk : Nat → R) (freq : Nat) (incl : Option R) (beta : R) (s : Sens R) (q : Quat R) :
    Out (Int × Sens R × Quat R) :=
  if CReal.lt beta (lit 0) then ok (-EINVAL, s, q)
  else fusMadgwick junk freq incl beta s q

/-! ### Complementary -/

/-- complementary.c:15-77 `zsl_fus_comp`. -/
def fusComp (junk : Nat → R) (freq : Nat) (alpha : R) (s : Sens R) (q : Quat R) : Out (Int × Quat R) :=
  if badSize s.a = true ∨ badSize s.m = true ∨ s.g.sz ≠ 3 ∨ CReal.lt alpha (lit 0) = true ∨ CReal.gt alpha (lit 1) = true then
    ok (-EINVAL, q)
  else if quatIsZero q then ok (-EINVAL, q)
  else do
    let q := quatToUnit q
    let (_, qw) ← quatFromAngVel s.g q (lit 1 / CReal.ofNat freq) (quatJunk junk)
    let vm ← sensValid s.m
    let va ← if vm then sensValid s.a else ok false
    match va, s.a, s.m with
    | true, some a, some m => do
      let (_, att) ← attFromAccelmag junk a m ⟨junk 0, junk 1, junk 2⟩
      let qam := quatFromEuler (attToEuler att)
      let (_, q) := quatLerp qw qam alpha q
      return (0, quatToUnit q)
    | _, _, _ => return (0, quatToUnit qw)

/-- complementary.c:101-111 `zsl_fus_comp_feed`; the sensors are not changed. -/
def fusCompFeed (junk : Nat → R) (freq : Nat) (alpha : R) (s : Sens R) (q : Quat R) : Out (Int × Quat R) :=
  if CReal.lt alpha (lit 0) || CReal.gt alpha (lit 1) then ok (-EINVAL, q)
  else fusComp junk freq alpha s q

/-! ### SAAM -/

/-- saam.c:15-59 `zsl_fus_saam` and 82-86 `zsl_fus_saam_feed`. The size check comes before the check for NULL, so NULL is
undefined behaviour. `junk 0` is the uninitialised `bz`. -/
def fusSaamFeed (junk : Nat → R) (s : Sens R) (q : Quat R) : Out (Int × Sens R × Quat R) :=
  match s.a, s.m with
  | none, _ => ub
  | some a, m =>
    if a.sz ≠ 3 then ok (-EINVAL, s, q)
    else match m with
    | none => ub
    | some m =>
      if m.sz ≠ 3 then ok (-EINVAL, s, q)
      else do
        let nm ← vecNorm m
        if CReal.lt (CReal.abs nm) (lit 1e-6) then ok (-EINVAL, s, q)
        else do
          let na ← vecNorm a
          if CReal.lt (CReal.abs na) (lit 1e-6) then ok (-EINVAL, s, q)
          else do
            let (_, a) ← vecToUnit a
            let (_, m) ← vecToUnit m
            let (_, bz) ← vecDot a m (junk 0)
            let bx := CReal.sqrt (lit 1 - bz * bz)
            let a0 ← rd a.data 0
            let a1 ← rd a.data 1
            let a2 ← rd a.data 2
            let m0 ← rd m.data 0
            let m1 ← rd m.data 1
            let m2 ← rd m.data 2
            return (0, { s with a := some a, m := some m },
              quatToUnit ⟨(-a1) * (bx + m0) + a0 * m1,
                (a2 - lit 1) * (bx + m0) + a0 * (bz - m2),
                (a2 - lit 1) * m1 + a1 * (bz - m2),
                a2 * bz - a0 * bx - m2⟩)

/-! ### AQUA -/

/-- aqua.h:42-73 `struct zsl_fus_aqua_cfg`. -/
structure AquaCfg (R : Type) where
  alpha : R
  beta : R
  ea : R
  em : R

/-- aqua.c:76-89 and 123-134: interpolate the correction `dq` with the identity and apply it. `old` is the uninitialised result. -/
def aquaApply (junk : Nat → R) (dq : Quat R) (eps t : R) (q : Quat R) : Quat R :=
  let qc := if CReal.gt dq.r eps then (quatLerp quatIdentity dq t (quatJunk junk)).2
    else (quatSlerp quatIdentity dq t (quatJunk junk)).2
  quatMult q qc

/-- aqua.c:69-74: the accelerometer correction computed from the rotated measurement. -/
def aquaDeltaAcc (qg : Quat R) : Quat R :=
  ⟨CReal.sqrt ((qg.k + lit 1) / lit 2), (-qg.j) / CReal.sqrt (lit 2 * (qg.k + lit 1)),
   qg.i / CReal.sqrt (lit 2 * (qg.k + lit 1)), lit 0⟩

/-- aqua.c:114-121: the magnetometer correction. -/
def aquaDeltaMag (ql : Quat R) : Quat R :=
  let y := CReal.sqrt (ql.i * ql.i + ql.j * ql.j)
  ⟨CReal.sqrt ((y * y + ql.i * y) / (lit 2 * y * y)), lit 0, lit 0, ql.j / CReal.sqrt (lit 2 * (y * y + ql.i * y))⟩

/-- aqua.c:16-143 `zsl_fus_aqua`. -/
def fusAqua (junk : Nat → R) (freq : Nat) (c : AquaCfg R) (s : Sens R) (q : Quat R) : Out (Int × Sens R × Quat R) :=
  if badSize s.a = true ∨ badSize s.m = true ∨ s.g.sz ≠ 3 then ok (-EINVAL, s, q)
  else if quatIsZero q then ok (-EINVAL, s, q)
  else do
    let q := quatToUnit q
    let (_, g) ← vecScalarMult s.g (lit (-1))
    let (_, q) ← quatFromAngVel g q (lit 1 / CReal.ofNat freq) q
    let valid ← sensValid s.a
    if valid then do
      let a ← unitP s.a
      let qa ← quatOfVec a
      let qg := (quatRot (quatInv q) qa (quatJunk junk)).2
      let q := aquaApply junk (aquaDeltaAcc qg) c.ea c.alpha q
      let vm ← sensValid s.m
      if vm then do
        let m ← unitP s.m
        let qm ← quatOfVec m
        let ql := (quatRot (quatInv q) qm (quatJunk junk)).2
        let q := aquaApply junk (aquaDeltaMag ql) c.em c.beta q
        return (0, ⟨some a, some m, g⟩, quatToUnit q)
      else return (0, ⟨some a, s.m, g⟩, quatToUnit q)
    else return (0, { s with g := g }, quatToUnit q)

/-- aqua.c:145-173 `zsl_fus_aqua_alpha_init`; `a == NULL` is undefined behaviour. Returns the new alpha and whether the
`initialised` counter was increased. -/
def fusAquaAlphaInit (a : Option (Vec R)) (alpha : R) : Out (R × Bool) :=
  match a with
  | none => ub
  | some a =>
    if a.sz ≠ 3 then ok (alpha, false)
    else do
      let n ← vecNorm a
      let me := CReal.abs (n - lit 9.81) / lit 9.81
      if CReal.ge me (lit 0.2) then return (lit 0, true)
      else if CReal.gt me (lit 0.1) && CReal.lt me (lit 0.2) then return (alpha * ((lit 0.2 - me) / lit 0.1), true)
      else return (alpha, true)

/-- aqua.c:197-215 `zsl_fus_aqua_feed`; `init` is the static `initialised`, returned last. -/
def fusAquaFeed (junk : Nat → R) (freq : Nat) (init : Bool) (c : AquaCfg R) (s : Sens R) (q : Quat R) :
    Out (Int × Sens R × AquaCfg R × Quat R × Bool) :=
  if CReal.lt c.alpha (lit 0) || CReal.gt c.alpha (lit 1) || CReal.lt c.beta (lit 0) || CReal.gt c.beta (lit 1) then
    ok (-EINVAL, s, c, q, init)
  else do
    let (alpha, init) ← if init then ok (c.alpha, init) else fusAquaAlphaInit s.a c.alpha
    let c := { c with alpha := alpha }
    let (rc, s, q) ← fusAqua junk freq c s q
    return (rc, s, c, q, init)

end Verif
