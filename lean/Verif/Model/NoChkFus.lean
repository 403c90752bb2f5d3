import Verif.Model.NoChkStat
import Verif.Model.NoChkOrient
import Verif.Model.Kalman
import Verif.Model.Calibration

/-!
# Sensor fusion and calibration with `CONFIG_ZSL_BOUNDS_CHECKS=n`

The functions of src/orientation/fusion without the guarded blocks, calling the unchecked functions of the other `NoChk` files. Tests that
stand outside a guarded block (negative gains, the tests for a missing sensor) are kept. The static variables keep the treatment of
`Model/Fusion.lean` and `Model/Kalman.lean`. A NULL pointer that is dereferenced is undefined behaviour.
-/

namespace Verif.NoChk

open Out

variable {R : Type} [CReal R]

/-- mahony.c:268-288, madgwick.c:283-303, complementary.c:79-99, saam.c:63-80, aqua.c:175-195, kalman.c:285-305: the `init` functions.
Bounds checks off. -/
def fusInit (freq _old : Nat) : Int × Nat := (0, freq)

/-- `v != NULL && ZSL_ABS(zsl_vec_norm(v)) > 1E-6`. Bounds checks off. For example mahony.c:39. -/
def sensValid (v : Option (Vec R)) : Out Bool :=
  match v with
  | none => ok false
  | some v => do
    let n ← vecNorm v
    return CReal.gt (CReal.abs n) (lit 1e-6)

/-- `v == NULL || ZSL_ABS(zsl_vec_norm(v)) < 1E-6`. Bounds checks off. For example mahony.c:136. -/
def sensMissing (v : Option (Vec R)) : Out Bool :=
  match v with
  | none => ok true
  | some v => do
    let n ← vecNorm v
    return CReal.lt (CReal.abs n) (lit 1e-6)

/-- `zsl_vec_to_unit(v)` for a pointer already checked against NULL; NULL is undefined behaviour. Bounds checks off. For example mahony.c:145. -/
def unitP (v : Option (Vec R)) : Out (Vec R) :=
  match v with
  | none => ub
  | some v => do
    let (_, v) ← vecToUnit v
    return v

/-! ### Mahony -/

/-- mahony.c:44-66 and 150-172: the cross product of the measured direction `a` with `b` rotated by `q`. Bounds checks off. -/
def fusCrossError (junk : Nat → R) (q b : Quat R) (a : Vec R) : Out (Vec R) := do
  let v := (quatRot q b (quatJunk junk)).2
  let (_, e) ← vecCross a ⟨3, [v.i, v.j, v.k]⟩ (Vec.uninit junk 3)
  return e

/-- mahony.c:182-199 and madgwick.c:201-218: the horizontal and vertical components of the magnetic field. Bounds checks off. -/
def fusEarthField (junk : Nat → R) (incl : Option R) (q qm : Quat R) : R × R :=
  match incl with
  | none =>
    let h := (quatRot q qm (quatJunk junk)).2
    (CReal.sqrt (h.i * h.i + h.j * h.j), h.k)
  | some x => (CReal.cos (x * zslPi / lit 180), CReal.sin (x * zslPi / lit 180))

/-- mahony.c:105-108 and 257-262: quaternion integration and normalisation. Bounds checks off. -/
def fusIntegrate (freq : Nat) (g : Vec R) (q : Quat R) : Out (Quat R) := do
  let (_, q) ← quatFromAngVel g q (lit 1 / CReal.ofNat freq) q
  return quatToUnit q

/-- mahony.c:15-112 `zsl_fus_mahony_imu`. Returns the code, the sensors, the integral feedback and the quaternion. Bounds checks off. -/
def fusMahonyImu (junk : Nat → R) (freq : Nat) (s : Sens R) (c : MahnCfg R) (q : Quat R) :
    Out (Int × Sens R × Vec R × Quat R) := do
    let valid ← sensValid s.a
    if valid then do
      let a ← unitP s.a
      let e ← fusCrossError junk q quatUp a
      let (fb, g) ← mahnFeedback freq c e s.g
      let q ← fusIntegrate freq g q
      return (0, { s with a := some a, g := g }, fb, q)
    else do
      let q ← fusIntegrate freq s.g q
      return (0, s, c.intfb, q)

/-- mahony.c:114-266 `zsl_fus_mahony`. Bounds checks off. -/
def fusMahony (junk : Nat → R) (freq : Nat) (incl : Option R) (s : Sens R) (c : MahnCfg R) (q : Quat R) :
    Out (Int × Sens R × Vec R × Quat R) := do
    let missing ← sensMissing s.m
    if missing then fusMahonyImu junk freq s c q
    else do
      let valid ← sensValid s.a
      if valid then do
        let a ← unitP s.a
        let m ← unitP s.m
        let eg ← fusCrossError junk q quatUp a
        let qm ← quatOfVec m
        let (bx, bz) := fusEarthField junk incl q qm
        let eb ← fusCrossError junk q ⟨lit 0, bx, lit 0, bz⟩ m
        let (_, e) ← vecAdd eg eb (Vec.uninit junk 3)
        let (fb, g) ← mahnFeedback freq c e s.g
        let q ← fusIntegrate freq g q
        return (0, ⟨some a, some m, g⟩, fb, q)
      else do
        let q ← fusIntegrate freq s.g q
        return (0, s, c.intfb, q)

/-- mahony.c:290-301 `zsl_fus_mahn_feed`. Returns the code, the sensors, the configuration and the quaternion. Bounds checks off. -/
def fusMahnFeed (junk : Nat → R) (freq : Nat) (incl : Option R) (s : Sens R) (c : MahnCfg R) (q : Quat R) :
    Out (Int × Sens R × MahnCfg R × Quat R) :=
  if CReal.lt c.kp (lit 0) || CReal.lt c.ki (lit 0) then ok (-EINVAL, s, c, q)
  else do
    let (rc, s, fb, q) ← fusMahony junk freq incl s c q
    return (rc, s, { c with intfb := fb }, q)

/-! ### Madgwick -/

/-- madgwick.c:48-65 and 159-174: `b` rotated by `q`, minus the measured direction, as a column. Bounds checks off. -/
def madgResidual (junk : Nat → R) (q b : Quat R) (a : Vec R) : Out (Mtx R) := do
  let v := (quatRot q b (quatJunk junk)).2
  let a0 ← rd a.data 0
  let a1 ← rd a.data 1
  let a2 ← rd a.data 2
  return ⟨3, 1, [v.i - a0, v.j - a1, v.k - a2]⟩

/-- madgwick.c:69-82: transposed Jacobian (as an array) times the residual. Bounds checks off. -/
def madgGrad (junk : Nat → R) (jac : List R) (f : Mtx R) : Out (Mtx R) := do
  let (_, jt) ← mtxFromArr (Mtx.uninit junk 4 3) jac
  let (_, jtf) ← mtxMult jt f (Mtx.uninit junk 4 1)
  return jtf

/-- madgwick.c:89-97 and 269-277: integration, the step along the gradient, normalisation. Bounds checks off. -/
def madgUpdate (freq : Nat) (beta : R) (g grad : Vec R) (q : Quat R) : Out (Quat R) := do
  let dt := lit 1 / CReal.ofNat freq
  let (_, q) ← quatFromAngVel g q dt q
  let d0 ← rd grad.data 0
  let d1 ← rd grad.data 1
  let d2 ← rd grad.data 2
  let d3 ← rd grad.data 3
  return quatToUnit ⟨q.r - dt * (beta * d0), q.i - dt * (beta * d1), q.j - dt * (beta * d2), q.k - dt * (beta * d3)⟩

/-- madgwick.c:15-101 `zsl_fus_madgwick_imu`. Bounds checks off. -/
def fusMadgwickImu (junk : Nat → R) (freq : Nat) (beta : R) (s : Sens R) (q : Quat R) : Out (Int × Sens R × Quat R) := do
    let q := quatToUnit q
    let (_, grad) ← vecInit (Vec.uninit junk 4)
    let valid ← sensValid s.a
    if valid then do
      let a ← unitP s.a
      let f ← madgResidual junk q quatUp a
      let jtf ← madgGrad junk (madgJacG q) f
      let (_, grad) ← vecFromArr grad jtf.data
      let (_, grad) ← vecToUnit grad
      let q ← madgUpdate freq beta s.g grad q
      return (0, { s with a := some a }, q)
    else do
      let q ← madgUpdate freq beta s.g grad q
      return (0, s, q)

/-- madgwick.c:114-281 `zsl_fus_madgwick`. Bounds checks off. -/
def fusMadgwick (junk : Nat → R) (freq : Nat) (incl : Option R) (beta : R) (s : Sens R) (q : Quat R) :
    Out (Int × Sens R × Quat R) := do
    let missing ← sensMissing s.m
    if missing then fusMadgwickImu junk freq beta s q
    else do
      let q := quatToUnit q
      let (_, grad) ← vecInit (Vec.uninit junk 4)
      let valid ← sensValid s.a
      if valid then do
        let a ← unitP s.a
        let m ← unitP s.m
        let fg ← madgResidual junk q quatUp a
        let jg ← madgGrad junk (madgJacG q) fg
        let qm ← quatOfVec m
        let (bx, bz) := fusEarthField junk incl q qm
        let fb ← madgResidual junk q ⟨lit 0, bx, lit 0, bz⟩ m
        let jb ← madgGrad junk (madgJacB bx bz q) fb
        let g0 ← rd jg.data 0
        let g1 ← rd jg.data 1
        let g2 ← rd jg.data 2
        let g3 ← rd jg.data 3
        let b0 ← rd jb.data 0
        let b1 ← rd jb.data 1
        let b2 ← rd jb.data 2
        let b3 ← rd jb.data 3
        let d ← wr grad.data 0 (g0 + b0)
        let d ← wr d 1 (g1 + b1)
        let d ← wr d 2 (g2 + b2)
        let d ← wr d 3 (g3 + b3)
        let (_, grad) ← vecToUnit { grad with data := d }
        let q ← madgUpdate freq beta s.g grad q
        return (0, { s with a := some a, m := some m }, q)
      else do
        let q ← madgUpdate freq beta s.g grad q
        return (0, s, q)

/-- madgwick.c:305-316 `zsl_fus_madg_feed`. Bounds checks off. -/
def fusMadgFeed (junk : Nat → R) (freq : Nat) (incl : Option R) (beta : R) (s : Sens R) (q : Quat R) :
    Out (Int × Sens R × Quat R) :=
  if CReal.lt beta (lit 0) then ok (-EINVAL, s, q)
  else fusMadgwick junk freq incl beta s q

/-! ### Complementary -/

/-- complementary.c:15-77 `zsl_fus_comp`. Bounds checks off. -/
def fusComp (junk : Nat → R) (freq : Nat) (alpha : R) (s : Sens R) (q : Quat R) : Out (Int × Quat R) := do
    let q := quatToUnit q
    let (_, qw) ← quatFromAngVel s.g q (lit 1 / CReal.ofNat freq) (quatJunk junk)
    let vm ← sensValid s.m
    let va ← if vm then sensValid s.a else ok false
    match va, s.a, s.m with
    | true, some a, some m => do
      let (_, att) ← attFromAccelmag junk a m ⟨junk 0, junk 1, junk 2⟩
      let qam := quatFromEuler (attToEuler att)
      let (_, q) := quatLerp qw qam alpha q
      return (0, quatToUnit q)
    | _, _, _ => return (0, quatToUnit qw)

/-- complementary.c:101-111 `zsl_fus_comp_feed`; the sensors are not changed. Bounds checks off. -/
def fusCompFeed (junk : Nat → R) (freq : Nat) (alpha : R) (s : Sens R) (q : Quat R) : Out (Int × Quat R) :=
  if CReal.lt alpha (lit 0) || CReal.gt alpha (lit 1) then ok (-EINVAL, q)
  else fusComp junk freq alpha s q

/-! ### SAAM -/

/-- saam.c:15-59 `zsl_fus_saam` and 82-86 `zsl_fus_saam_feed`. Without the size check NULL is reported by the test of lines 30-34.
Bounds checks off. -/
def fusSaamFeed (junk : Nat → R) (s : Sens R) (q : Quat R) : Out (Int × Sens R × Quat R) :=
  match s.m with
  | none => ok (-EINVAL, s, q)
  | some m => do
    let nm ← vecNorm m
    if CReal.lt (CReal.abs nm) (lit 1e-6) then ok (-EINVAL, s, q)
    else match s.a with
    | none => ok (-EINVAL, s, q)
    | some a => do
      let na ← vecNorm a
      if CReal.lt (CReal.abs na) (lit 1e-6) then ok (-EINVAL, s, q)
      else do
        let (_, a) ← vecToUnit a
        let (_, m) ← vecToUnit m
        let (_, bz) ← vecDot a m (junk 0)
        let bx := CReal.sqrt (lit 1 - bz * bz)
        let a0 ← rd a.data 0
        let a1 ← rd a.data 1
        let a2 ← rd a.data 2
        let m0 ← rd m.data 0
        let m1 ← rd m.data 1
        let m2 ← rd m.data 2
        return (0, { s with a := some a, m := some m },
          quatToUnit ⟨(-a1) * (bx + m0) + a0 * m1,
            (a2 - lit 1) * (bx + m0) + a0 * (bz - m2),
            (a2 - lit 1) * m1 + a1 * (bz - m2),
            a2 * bz - a0 * bx - m2⟩)

/-! ### AQUA -/

/-- aqua.c:76-89 and 123-134: interpolate the correction `dq` with the identity and apply it. `old` is the uninitialised result. Bounds checks off. -/
def aquaApply (junk : Nat → R) (dq : Quat R) (eps t : R) (q : Quat R) : Quat R :=
  let qc := if CReal.gt dq.r eps then (quatLerp quatIdentity dq t (quatJunk junk)).2
    else (quatSlerp quatIdentity dq t (quatJunk junk)).2
  quatMult q qc

/-- aqua.c:16-143 `zsl_fus_aqua`. Bounds checks off. -/
def fusAqua (junk : Nat → R) (freq : Nat) (c : AquaCfg R) (s : Sens R) (q : Quat R) : Out (Int × Sens R × Quat R) := do
    let q := quatToUnit q
    let (_, g) ← vecScalarMult s.g (lit (-1))
    let (_, q) ← quatFromAngVel g q (lit 1 / CReal.ofNat freq) q
    let valid ← sensValid s.a
    if valid then do
      let a ← unitP s.a
      let qa ← quatOfVec a
      let qg := (quatRot (quatInv q) qa (quatJunk junk)).2
      let q := aquaApply junk (aquaDeltaAcc qg) c.ea c.alpha q
      let vm ← sensValid s.m
      if vm then do
        let m ← unitP s.m
        let qm ← quatOfVec m
        let ql := (quatRot (quatInv q) qm (quatJunk junk)).2
        let q := aquaApply junk (aquaDeltaMag ql) c.em c.beta q
        return (0, ⟨some a, some m, g⟩, quatToUnit q)
      else return (0, ⟨some a, s.m, g⟩, quatToUnit q)
    else return (0, { s with g := g }, quatToUnit q)

/-- aqua.c:145-173 `zsl_fus_aqua_alpha_init`; `a == NULL` is undefined behaviour. Returns the new alpha and whether the
`initialised` counter was increased. Bounds checks off. -/
def fusAquaAlphaInit (a : Option (Vec R)) (alpha : R) : Out (R × Bool) :=
  match a with
  | none => ub
  | some a => do
      let n ← vecNorm a
      let me := CReal.abs (n - lit 9.81) / lit 9.81
      if CReal.ge me (lit 0.2) then return (lit 0, true)
      else if CReal.gt me (lit 0.1) && CReal.lt me (lit 0.2) then return (alpha * ((lit 0.2 - me) / lit 0.1), true)
      else return (alpha, true)

/-- aqua.c:197-215 `zsl_fus_aqua_feed`; `init` is the static `initialised`, returned last. Bounds checks off. -/
def fusAquaFeed (junk : Nat → R) (freq : Nat) (init : Bool) (c : AquaCfg R) (s : Sens R) (q : Quat R) :
    Out (Int × Sens R × AquaCfg R × Quat R × Bool) :=
  if CReal.lt c.alpha (lit 0) || CReal.gt c.alpha (lit 1) || CReal.lt c.beta (lit 0) || CReal.gt c.beta (lit 1) then
    ok (-EINVAL, s, c, q, init)
  else do
    let (alpha, init) ← if init then ok (c.alpha, init) else fusAquaAlphaInit s.a c.alpha
    let c := { c with alpha := alpha }
    let (rc, s, q) ← fusAqua junk freq c s q
    return (rc, s, c, q, init)

/-! ### Kalman -/

/-- kalman.c:31-77: the prediction step; returns `P` and `q`. Bounds checks off. -/
def kalmPredict (junk : Nat → R) (freq : Nat) (varG : R) (g : Vec R) (P : Mtx R) (q : Quat R) : Out (Mtx R × Quat R) := do
  let h := lit 1 / (lit 2 * CReal.ofNat freq)
  let g0 ← rd g.data 0
  let g1 ← rd g.data 1
  let g2 ← rd g.data 2
  let (_, F) ← mtxFromArr (Mtx.uninit junk 4 4) (kalmF h g0 g1 g2)
  let (_, Ft) ← mtxTrans junk F (Mtx.uninit junk 4 4)
  let (_, W) ← mtxFromArr (Mtx.uninit junk 4 3) (kalmW q)
  let (_, Wt) ← mtxTrans junk W (Mtx.uninit junk 3 4)
  let (_, Q) ← mtxMult W Wt (Mtx.uninit junk 4 4)
  let (_, Q) ← mtxScalarMultD Q (varG * h * h)
  let (_, FP) ← mtxMult F P (Mtx.uninit junk 4 4)
  let (_, P) ← mtxMult FP Ft P
  let (_, P) ← mtxAddD P Q
  let (_, q) ← quatFromAngVel g q (lit 1 / CReal.ofNat freq) q
  return (P, q)

/-- kalman.c:104-116: the unit magnetic field `mg` of the earth. Bounds checks off. -/
def kalmField (junk : Nat → R) (incl : Option R) (q qm : Quat R) : Quat R :=
  let (x, z) := fusEarthField junk incl q qm
  quatToUnit ⟨lit 0, x, lit 0, z⟩

/-- kalman.c:118-132: the measurement model, `h`. Bounds checks off. -/
def kalmModel (junk : Nat → R) (q mg : Quat R) : Mtx R :=
  let a2 := (quatRot q ⟨lit 0, lit 0, lit 0, lit (-1)⟩ (quatJunk junk)).2
  let m2 := (quatRot q mg (quatJunk junk)).2
  ⟨6, 1, [lit 2 * a2.i, lit 2 * a2.j, lit 2 * a2.k, lit 2 * m2.i, lit 2 * m2.j, lit 2 * m2.k]⟩

/-- kalman.c:162-171: the matrix `R` of the measurement variances. Bounds checks off. -/
def kalmNoise (junk : Nat → R) (varA varM : R) : Out (Mtx R) := do
  let (_, r) ← mtxInit (Mtx.uninit junk 6 6) (some entryFnIdentity)
  let (_, r) ← mtxSet r 0 0 varA
  let (_, r) ← mtxSet r 1 1 varA
  let (_, r) ← mtxSet r 2 2 varA
  let (_, r) ← mtxSet r 3 3 varM
  let (_, r) ← mtxSet r 4 4 varM
  let (_, r) ← mtxSet r 5 5 varM
  return r

/-- kalman.c:134-213: the gain from the Jacobian `hd`, the noise and the predicted `P`, the corrected `P` and the corrected, normalised `q`;
`z` is the measurement and `hx` its prediction. Bounds checks off. -/
def kalmCorrect (junk : Nat → R) (varA varM : R) (z hx : Mtx R) (hd : List R) (P : Mtx R) (q : Quat R) : Out (Mtx R × Quat R) := do
  let (_, H) ← mtxFromArr (Mtx.uninit junk 6 4) hd
  let (_, H) ← mtxScalarMultD H (lit 2)
  let (_, Ht) ← mtxTrans junk H (Mtx.uninit junk 4 6)
  let r ← kalmNoise junk varA varM
  let (_, v) ← mtxSub z hx (Mtx.uninit junk 6 1)
  let (_, HP) ← mtxMult H P (Mtx.uninit junk 6 4)
  let (_, HPHt) ← mtxMult HP Ht (Mtx.uninit junk 6 6)
  let (_, S) ← mtxAdd HPHt r (Mtx.uninit junk 6 6)
  let (_, Si) ← mtxInv junk S (Mtx.uninit junk 6 6)
  let (_, PHt) ← mtxMult P Ht (Mtx.uninit junk 4 6)
  let (_, K) ← mtxMult PHt Si (Mtx.uninit junk 4 6)
  let (_, idx) ← mtxInit (Mtx.uninit junk 4 4) (some entryFnIdentity)
  let (_, KH) ← mtxMult K H (Mtx.uninit junk 4 4)
  let (_, idx) ← mtxSubD idx KH
  let (_, P) ← mtxMult idx P P
  let (_, Kv) ← mtxMult K v (Mtx.uninit junk 4 1)
  let k0 ← rd Kv.data 0
  let k1 ← rd Kv.data 1
  let k2 ← rd Kv.data 2
  let k3 ← rd Kv.data 3
  return (P, quatToUnit ⟨q.r + k0, q.i + k1, q.j + k2, q.k + k3⟩)

/-- kalman.c:16-217 `zsl_fus_kalman`. Returns the code, the sensors, `P` and `q`. Bounds checks off. -/
def fusKalman (junk : Nat → R) (freq : Nat) (incl : Option R) (c : KalmCfg R) (s : Sens3 R) (q : Quat R) :
    Out (Int × Sens3 R × Mtx R × Quat R) :=
  match s.a, s.m, s.g with
  | some a, some m, some g => do
      let (P, q) ← kalmPredict junk freq c.varG g c.P q
      let (_, a) ← vecToUnit a
      let (_, m) ← vecToUnit m
      let z ← kalmMeas a m
      let qm ← quatOfVec m
      let mg := kalmField junk incl q qm
      let (P, q) ← kalmCorrect junk c.varA c.varM z (kalmModel junk q mg) (kalmH q mg) P q
      return (0, ⟨some a, some m, some g⟩, P, q)
  | _, _, _ => ub

/-- kalman.c:219-262 `zsl_fus_kalm_quat_init`. Returns the code, the quaternion and whether the flag is set. Bounds checks off. -/
def kalmQuatInit (junk : Nat → R) (a m : Option (Vec R)) (q : Quat R) : Out (Int × Quat R × Bool) :=
  match a, m with
  | some a, some m => do
      let (_, w) ← vecCross a m (Vec.uninit junk 3)
      let (_, v) ← vecCross w a (Vec.uninit junk 3)
      let (_, u) ← vecCopy (Vec.uninit junk 3) a
      let (_, v) ← vecToUnit v
      let (_, w) ← vecToUnit w
      let (_, u) ← vecToUnit u
      let (_, x) ← mtxSetCol (Mtx.uninit junk 3 3) 0 v.data
      let (_, x) ← mtxSetCol x 1 w.data
      let (_, x) ← mtxSetCol x 2 u.data
      let (_, q) ← quatFromRotMtx x q
      return (0, quatToUnit q, true)
  | _, _ => ub

/-- kalman.c:264-283 `zsl_fus_kalm_P_init`. Returns the code, the matrix and whether the flag is set. Bounds checks off. -/
def kalmPInit (P : Mtx R) : Out (Int × Mtx R × Bool) := do
    let (_, P) ← mtxInit P (some entryFnIdentity)
    return (0, P, true)

/-- kalman.c:307-324 `zsl_fus_kalm_feed`; `started` is `zsl_fus_kalm_initialised`. Returns the code, the sensors, the configuration,
the quaternion and the flag. Bounds checks off. -/
def fusKalmFeed (junk : Nat → R) (freq : Nat) (incl : Option R) (s : Sens3 R) (c : KalmCfg R) (q : Quat R) (started : Bool) :
    Out (Int × Sens3 R × KalmCfg R × Quat R × Bool) :=
  if CReal.lt c.varG (lit 0) || CReal.lt c.varA (lit 0) || CReal.lt c.varM (lit 0) then ok (-EINVAL, s, c, q, started)
  else if started then do
    let (rc, s, P, q) ← fusKalman junk freq incl c s q
    return (rc, s, { c with P := P }, q, true)
  else do
    let (_, q, b1) ← kalmQuatInit junk s.a s.m q
    let (_, P, b2) ← kalmPInit c.P
    let (rc, s, P, q) ← fusKalman junk freq incl { c with P := P } s q
    return (rc, s, { c with P := P }, q, b1 || b2)

/-! ### Calibration -/

/-- calibration.c:50-72 `zsl_fus_cal_rot_mtx`. Bounds checks off. -/
def calRotMtx (junk : Nat → R) (v : Vec R) (m : Mtx R) (vRot : Vec R) : Out (Int × Vec R) := do
    let (_, vm) ← mtxFromArr (Mtx.uninit junk 3 1) v.data
    let (_, mv) ← mtxMult m vm (Mtx.uninit junk 3 1)
    let (_, vRot) ← vecFromArr vRot mv.data
    return (0, vRot)

/-- calibration.c:74-95 `zsl_fus_cal_rot_axis_angle`. Bounds checks off. -/
def calRotAxisAngle (junk : Nat → R) (v a : Vec R) (b : R) (vRot : Vec R) : Out (Int × Vec R) := do
    let (_, q) ← quatFromAxisAngle junk a b (quatJunk junk)
    let (_, m) ← quatToRotMtx q (Mtx.uninit junk 3 3)
    let (_, vRot) ← calRotMtx junk v m vRot
    return (0, vRot)

/-- calibration.c:407-429 `zsl_fus_cal_corr_vec`. Local arrays of size zero are undefined behaviour. Bounds checks off. -/
def calCorrVec (junk : Nat → R) (v : Vec R) (K : Mtx R) (b vOut : Vec R) : Out (Int × Vec R) :=
  if v.sz = 0 then ub
  else do
    let (_, vb) ← vecAdd v b (Vec.uninit junk v.sz)
    let (_, VB) ← mtxFromArr (Mtx.uninit junk v.sz 1) vb.data
    let (_, KVB) ← mtxMult K VB (Mtx.uninit junk v.sz 1)
    let (_, vOut) ← vecFromArr vOut KVB.data
    return (0, vOut)

/-- calibration.c:476-478 and 563-565: row `j` of a data matrix, copied into a local three-dimensional vector. The vectors are
overwritten in every pass before they are used, so they are not carried from one pass to the next. Bounds checks off. -/
def calRow (junk : Nat → R) (m : Mtx R) (j : Nat) : Out (Vec R) := do
  let (_, d) ← mtxGetRow m j (junkArr junk 3)
  return ⟨3, d⟩

/-- calibration.c:482-490 and 569-577: the squared differences of roll and pitch between the attitude `q` and the accelerometer
reading `av`, added to the sums `Sx` and `Sy`. Bounds checks off. -/
def calTilt (junk : Nat → R) (q : Quat R) (av : Vec R) (Sx Sy : R) : Out (R × R) := do
  let e := quatToEuler q
  let ex := e.x * (lit 180 / zslPi)
  let ey := e.y * (lit 180 / zslPi)
  let (_, att) ← attFromAccel junk av ⟨junk 0, junk 1, junk 2⟩
  return (Sx + (ex - att.roll) * (ex - att.roll), Sy + (ey - att.pitch) * (ey - att.pitch))

/-- calibration.c:470-495: the run of the Madgwick filter over all rows with the gain `beta`, from the identity; the accumulated error. Bounds checks off. -/
def calMadgError (junk : Nat → R) (freq : Nat) (incl : Option R) (g a m : Mtx R) (beta : R) : Out R := do
  let s ← forN a.rows (fun j (s : Quat R × R × R) => do
    let gv ← calRow junk g j
    let av ← calRow junk a j
    let mv ← calRow junk m j
    let (_, sens, q) ← fusMadgFeed junk freq incl beta ⟨some av, some mv, gv⟩ s.1
    let av ← sensVec sens.a
    let (Sx, Sy) ← calTilt junk q av s.2.1 s.2.2
    return (q, Sx, Sy)) (quatIdentity, lit 0, lit 0)
  return calTotal a.rows s.2.1 s.2.2

/-- calibration.c:431-509 `zsl_fus_cal_madg`; `old` is the frequency the filter was last initialised with, `beta` the previous value of
`*beta`. The frequency set by this call stays with the filter and is not returned. Bounds checks off. -/
def calMadg (junk : Nat → R) (old : Nat) (g a m : Mtx R) (sampleFreq : R) (incl : Option R) (beta : R) : Out (Int × R) := do
    let f ← realToU32 sampleFreq
    let (_, freq) := fusInit f old
    let beta ← forN 1000 (fun i beta => do
      let cand := CReal.ofNat i / lit 1000
      let St ← calMadgError junk freq incl g a m cand
      return calKeep i St cand beta) beta
    return (0, beta)

/-- calibration.c:557-582: the run of the Mahony filter over all rows with the gain `kp`, from the identity; the accumulated error and
the integral feedback, which is carried over to the next candidate. `ki` is 0.02 and the limit of the integral is zero (calibration.c:528-535:
members left out of an initialiser). Bounds checks off. -/
def calMahnError (junk : Nat → R) (freq : Nat) (incl : Option R) (g a m : Mtx R) (kp : R) (fb : Vec R) : Out (R × Vec R) := do
  let s ← forN a.rows (fun j (s : Quat R × Vec R × R × R) => do
    let gv ← calRow junk g j
    let av ← calRow junk a j
    let mv ← calRow junk m j
    let (_, sens, c, q) ← fusMahnFeed junk freq incl ⟨some av, some mv, gv⟩ ⟨kp, lit 0.02, lit 0, s.2.1⟩ s.1
    let av ← sensVec sens.a
    let (Sx, Sy) ← calTilt junk q av s.2.2.1 s.2.2.2
    return (q, c.intfb, Sx, Sy)) (quatIdentity, fb, lit 0, lit 0)
  return (calTotal a.rows s.2.2.1 s.2.2.2, s.2.1)

/-- calibration.c:511-596 `zsl_fus_cal_mahn`; parameters as for `calMadg`. Bounds checks off. -/
def calMahn (junk : Nat → R) (old : Nat) (g a m : Mtx R) (sampleFreq : R) (incl : Option R) (kp : R) : Out (Int × R) := do
    let f ← realToU32 sampleFreq
    let (_, freq) := fusInit f old
    let s ← forN 1000 (fun i (s : R × Vec R) => do
      let cand := CReal.ofNat i / lit 1000
      let (St, fb) ← calMahnError junk freq incl g a m cand s.2
      return (calKeep i St cand s.1, fb)) (kp, ⟨3, [lit 0, lit 0, lit 0]⟩)
    return (0, s.1)

/-- calibration.c:337-394 `zsl_fus_cal_magn_fast`; `me` NULL is `none`. Returns the code, `K` and `b`. Bounds checks off. -/
def calMagnFast (junk : Nat → R) (m : Mtx R) (me : Option R) (K : Mtx R) (b : Vec R) : Out (Int × Mtx R × Vec R) := do
    let me := me.getD (lit 50)
    let (_, coef) ← staQuadFit junk m (Vec.uninit junk 9)
    let A ← calQuadric coef.data
    let v0 ← rd coef.data 6
    let v1 ← rd coef.data 7
    let v2 ← rd coef.data 8
    let (_, L) ← mtxCholesky (junk 0) A (Mtx.uninit junk 3 3)
    let (_, G) ← mtxTrans junk L (Mtx.uninit junk 3 3)
    let (_, G) ← mtxScalarMultD G me
    let (_, K) ← mtxCopy K G
    let (_, Ai) ← mtxInv junk A (Mtx.uninit junk 3 3)
    let (_, X0) ← mtxMult Ai ⟨3, 1, [v0, v1, v2]⟩ (Mtx.uninit junk 3 1)
    let x0 ← rd X0.data 0
    let x1 ← rd X0.data 1
    let x2 ← rd X0.data 2
    let d ← wr b.data 0 x0
    let d ← wr d 1 x1
    let d ← wr d 2 x2
    return (0, K, { b with data := d })

/-- calibration.c:15-21 `zsl_fus_cal_magn_f_shp`. Bounds checks off. -/
def calFShp (junk : Nat → R) (H b : Vec R) : Out R := do
  let (_, Hb) ← vecAdd H b (Vec.uninit junk 3)
  vecNorm Hb

/-- calibration.c:25-47 `zsl_fus_cal_magn_f_elli`. Bounds checks off. -/
def calFElli (junk : Nat → R) (H : Vec R) (g : List R) : Out R := do
  let K ← calSym g
  let h0 ← rd H.data 0
  let h1 ← rd H.data 1
  let h2 ← rd H.data 2
  let g6 ← rd g 6
  let g7 ← rd g 7
  let g8 ← rd g 8
  let (_, KHb) ← mtxMult ⟨3, 3, K⟩ ⟨3, 1, [h0 + g6, h1 + g7, h2 + g8]⟩ (Mtx.uninit junk 3 1)
  let (_, Hd) ← vecFromArr (Vec.uninit junk 3) KHb.data
  vecNorm Hd

/-- calibration.c:124-129: for each axis the middle of the range (negated, into `b`) and half the range (added up). Bounds checks off. -/
def calCentre (fuel : Nat) (extra : List R) (junk : Nat → R) (m : Mtx R) (b : Vec R) : Out (List R × R) := do
  let s ← forN 3 (fun i (s : List R × R × List R × List R) => do
    let (_, v) ← mtxGetCol m i s.2.2.1
    let (_, w) ← vecSort fuel extra ⟨m.rows, v⟩ ⟨m.rows, s.2.2.2⟩
    let hi ← rd w.data (szSub m.rows 1)
    let lo ← rd w.data 0
    let d ← wr s.1 i (-(hi + lo) / lit 2)
    return (d, s.2.1 + (hi - lo) / lit 2, v, w.data)) (b.data, lit 0, junkArr junk m.rows, junkArr junk m.rows)
  return (s.1, s.2.1)

/-- calibration.c:160-173 and 269-287: one Levenberg-Marquardt step with the Jacobian row `J` of `n` entries and the residual `r`:
the matrix left in `idx`, and `tau`. Bounds checks off. -/
def calTau (junk : Nat → R) (n : Nat) (l : R) (J idx : Mtx R) (r : R) : Out (Mtx R × Mtx R) := do
  let (_, Jt) ← mtxTrans junk J (Mtx.uninit junk n 1)
  let (_, JtJ) ← mtxMult Jt J (Mtx.uninit junk n n)
  let idx ← calDamp n l JtJ idx
  let (_, JtJ) ← mtxAddD JtJ idx
  let (_, idx) ← mtxInv junk JtJ idx
  let (_, t) ← mtxMult idx Jt (Mtx.uninit junk n 1)
  let (_, t) ← mtxScalarMultD t r
  return (idx, t)

/-- calibration.c:149-157: the Jacobian row of the sphere. Bounds checks off. -/
def calJacShp (junk : Nat → R) (m : Mtx R) (b : Vec R) : Out (List R) :=
  forN m.rows (fun i (J : List R) => do
    let H ← calRow junk m i
    let f ← calFShp junk H b
    let h0 ← rd H.data 0
    let h1 ← rd H.data 1
    let h2 ← rd H.data 2
    let b0 ← rd b.data 0
    let b1 ← rd b.data 1
    let b2 ← rd b.data 2
    let j0 ← rd J 0
    let j1 ← rd J 1
    let j2 ← rd J 2
    let j3 ← rd J 3
    return [j0 + lit 1, j1 + -(h0 - b0) / f, j2 + -(h1 - b1) / f, j3 + -(h2 - b2) / f]) [lit 0, lit 0, lit 0, lit 0]

/-- calibration.c:146-199: one pass of the sphere fit. Bounds checks off. -/
def calSphere (junk : Nat → R) (m : Mtx R) (mu : R) (j : Nat) (s : CalFit R) : Out (CalFit R) := do
  let J ← calJacShp junk m ⟨3, s.b⟩
  let H ← calRow junk m j
  let f ← calFShp junk H ⟨3, s.b⟩
  let (idx, t) ← calTau junk 4 s.l ⟨1, 4, J⟩ s.idx (-(s.rad - f))
  let t0 ← rd t.data 0
  let t1 ← rd t.data 1
  let t2 ← rd t.data 2
  let t3 ← rd t.data 3
  let b0 ← rd s.b 0
  let b1 ← rd s.b 1
  let b2 ← rd s.b 2
  let rad := s.rad + t0
  let d ← wr s.b 0 (b0 + t1)
  let d ← wr d 1 (b1 + t2)
  let d ← wr d 2 (b2 + t3)
  if j < szSub m.rows 1 then do
    let H ← calRow junk m (j + 1)
    let f ← calFShp junk H ⟨3, d⟩
    let (S, l) := calLambda j s.S (rad - f) s.l mu
    return ⟨rad, d, l, S, idx⟩
  else return ⟨rad, d, s.l, s.S, idx⟩

/-- calibration.c:236-266: the Jacobian row of the ellipsoid with parameters `g`; the offset used is `b`, the result of the sphere fit. Bounds checks off. -/
def calJacElli (junk : Nat → R) (m : Mtx R) (g b : List R) : Out (List R) :=
  forN m.rows (fun i (N : List R) => do
    let H ← calRow junk m i
    let f ← calFElli junk H g
    let h0 ← rd H.data 0
    let h1 ← rd H.data 1
    let h2 ← rd H.data 2
    let b0 ← rd b 0
    let b1 ← rd b 1
    let b2 ← rd b 2
    let g0 ← rd g 0
    let g1 ← rd g 1
    let g2 ← rd g 2
    let g3 ← rd g 3
    let g4 ← rd g 4
    let g5 ← rd g 5
    let A := g0 * (h0 + b0) + g1 * (h1 + b1) + g2 * (h2 + b2)
    let B := g1 * (h0 + b0) + g3 * (h1 + b1) + g4 * (h2 + b2)
    let C := g2 * (h0 + b0) + g4 * (h1 + b1) + g5 * (h2 + b2)
    let n0 ← rd N 0
    let n1 ← rd N 1
    let n2 ← rd N 2
    let n3 ← rd N 3
    let n4 ← rd N 4
    let n5 ← rd N 5
    let n6 ← rd N 6
    let n7 ← rd N 7
    let n8 ← rd N 8
    return [n0 + -(h0 + b0) * A / f, n1 + -(h1 + b1) * B / f, n2 + -(h2 + b2) * C / f,
      n3 + -((h1 + b1) * A + (h0 + b0) * B) / f, n4 + -((h2 + b2) * A + (h0 + b0) * C) / f,
      n5 + -((h2 + b2) * B + (h1 + b1) * C) / f, n6 + -A / f, n7 + -B / f, n8 + -C / f])
    (List.replicate 9 (lit 0))

/-- calibration.c:235-317: one pass of the ellipsoid fit; in the state `b` are the nine parameters and `rad` does not change. Bounds checks off. -/
def calEllipsoid (junk : Nat → R) (m : Mtx R) (mu : R) (b : List R) (j : Nat) (s : CalFit R) : Out (CalFit R) := do
  let N ← calJacElli junk m s.b b
  let H ← calRow junk m j
  let f ← calFElli junk H s.b
  let (idx, t) ← calTau junk 9 s.l ⟨1, 9, N⟩ s.idx (-(s.rad - f))
  let d ← forN 9 (fun k d => do
    let x ← rd d k
    let y ← rd t.data k
    wr d k (x + y)) s.b
  if j < szSub m.rows 1 then do
    let H ← calRow junk m (j + 1)
    let f ← calFElli junk H d
    let (S, l) := calLambda j s.S (s.rad - f) s.l mu
    return ⟨s.rad, d, l, S, idx⟩
  else return ⟨s.rad, d, s.l, s.S, idx⟩

/-- calibration.c:98-333 `zsl_fus_cal_magn`. Returns the code, `*l`, `K` and `b`. Bounds checks off. -/
def calMagn (fuel : Nat) (extra : List R) (junk : Nat → R) (m : Mtx R) (l mu : R) (K : Mtx R) (b : Vec R) :
    Out (Int × R × Mtx R × Vec R) :=
  if m.rows = 0 then ub
  else do
    let (d, mean) ← calCentre fuel extra junk m b
    let (_, idx) ← mtxInit (Mtx.uninit junk 4 4) (some entryFnIdentity)
    let s ← forN m.rows (fun j s => calSphere junk m mu j s) ⟨mean / lit 3, d, l, lit 0, idx⟩
    let (_, K) ← mtxInit K (some entryFnIdentity)
    let b0 ← rd s.b 0
    let b1 ← rd s.b 1
    let b2 ← rd s.b 2
    let (_, idxN) ← mtxInit (Mtx.uninit junk 9 9) (some entryFnIdentity)
    let e ← forN m.rows (fun j e => calEllipsoid junk m mu s.b j e)
      ⟨s.rad, [lit 1, lit 0, lit 0, lit 1, lit 0, lit 1, b0, b1, b2], l, lit 0, idxN⟩
    let k ← calSym e.b
    let kd ← forN 9 (fun i d => do
      let x ← rd k i
      wr d i x) K.data
    let g6 ← rd e.b 6
    let g7 ← rd e.b 7
    let g8 ← rd e.b 8
    let d ← wr s.b 0 g6
    let d ← wr d 1 g7
    let d ← wr d 2 g8
    return (0, e.l, { K with data := kd }, { b with data := d })

end Verif.NoChk
