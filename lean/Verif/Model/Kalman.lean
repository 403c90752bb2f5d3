import Verif.Model.Fusion

/-!
# Model of src/orientation/fusion/kalman.c

The conventions are those of `Verif.Model.Fusion`. The static variable `zsl_fus_kalm_initialised`, `0` or `1` and never reset, is a
`Bool` of the state. `zsl_fus_kalm_init` is `fusInit`. The return codes of the matrix functions are dropped, as in the code.
-/

namespace Verif

open Out

variable {R : Type} [CReal R]

/-- The three sensor pointers of a feed, each possibly NULL. fusion.h:61-80 (`zsl_fus_feed_cb_t`). -/
structure Sens3 (R : Type) where
  a : Option (Vec R)
  m : Option (Vec R)
  g : Option (Vec R)

/-- kalman.h:40-63 `struct zsl_fus_kalm_cfg`. -/
structure KalmCfg (R : Type) where
  varG : R
  varA : R
  varM : R
  P : Mtx R

/-- kalman.c:40-45 `F_data`, with `h` for `if2`. -/
def kalmF (h g0 g1 g2 : R) : List R :=
  [lit 1, -h * g0, -h * g1, -h * g2,
   h * g0, lit 1, h * g2, -h * g1,
   h * g1, -h * g2, lit 1, h * g0,
   h * g2, h * g1, -h * g0, lit 1]

/-- kalman.c:54-59 `W_data`. -/
def kalmW (q : Quat R) : List R :=
  [-q.i, -q.j, -q.k,
   q.r, -q.k, q.j,
   q.k, q.r, -q.i,
   -q.j, q.i, q.r]

/-- kalman.c:31-77: the prediction step; returns `P` and `q`. -/
def kalmPredict (junk : Nat → R) (freq : Nat) (varG : R) (g : Vec R) (P : Mtx R) (q : Quat R) : Out (Mtx R × Quat R) := do
  let h := lit 1 / (lit 2 * CReal.ofNat freq)
  let g0 ← rd g.data 0
  let g1 ← rd g.data 1
  let g2 ← rd g.data 2
  let (_, F) ← mtxFromArr (Mtx.uninit junk 4 4) (kalmF h g0 g1 g2)
  let (_, Ft) ← mtxTrans junk F (Mtx.uninit junk 4 4)
  let (_, W) ← mtxFromArr (Mtx.uninit junk 4 3) (kalmW q)
  let (_, Wt) ← mtxTrans junk W (Mtx.uninit junk 3 4)
  let (_, Q) ← mtxMult W Wt (Mtx.uninit junk 4 4)
  let (_, Q) ← mtxScalarMultD Q (varG * h * h)
  let (_, FP) ← mtxMult F P (Mtx.uninit junk 4 4)
  let (_, P) ← mtxMult FP Ft P
  let (_, P) ← mtxAddD P Q
  let (_, q) ← quatFromAngVel g q (lit 1 / CReal.ofNat freq) q
  return (P, q)

/-- kalman.c:104-116: the unit magnetic field `mg` of the earth. -/
def kalmField (junk : Nat → R) (incl : Option R) (q qm : Quat R) : Quat R :=
  let (x, z) := fusEarthField junk incl q qm
  quatToUnit ⟨lit 0, x, lit 0, z⟩

/-- kalman.c:118-132: the measurement model, `h`. -/
def kalmModel (junk : Nat → R) (q mg : Quat R) : Mtx R :=
  let a2 := (quatRot q ⟨lit 0, lit 0, lit 0, lit (-1)⟩ (quatJunk junk)).2
  let m2 := (quatRot q mg (quatJunk junk)).2
  ⟨6, 1, [lit 2 * a2.i, lit 2 * a2.j, lit 2 * a2.k, lit 2 * m2.i, lit 2 * m2.j, lit 2 * m2.k]⟩

/-- kalman.c:139-156 `H_data`. -/
def kalmH (q mg : Quat R) : List R :=
  [q.j, -q.k, q.r, -q.i,
   -q.i, -q.r, -q.k, -q.j,
   lit 0, lit 2 * q.i, lit 2 * q.j, lit 0,
   -mg.k * q.j, mg.k * q.k, lit (-2) * mg.i * q.j - mg.k * q.r, lit (-2) * mg.i * q.k + mg.k * q.i,
   -mg.i * q.k + mg.k * q.i, mg.i * q.j + mg.k * q.r, mg.i * q.i + mg.k * q.k, -mg.i * q.r + mg.k * q.j,
   mg.i * q.j, mg.i * q.k - lit 2 * mg.k * q.i, mg.i * q.r - lit 2 * mg.k * q.j, mg.i * q.i]

/-- kalman.c:162-171: the matrix `R` of the measurement variances. -/
def kalmNoise (junk : Nat → R) (varA varM : R) : Out (Mtx R) := do
  let (_, r) ← mtxInit (Mtx.uninit junk 6 6) (some entryFnIdentity)
  let (_, r) ← mtxSet r 0 0 varA
  let (_, r) ← mtxSet r 1 1 varA
  let (_, r) ← mtxSet r 2 2 varA
  let (_, r) ← mtxSet r 3 3 varM
  let (_, r) ← mtxSet r 4 4 varM
  let (_, r) ← mtxSet r 5 5 varM
  return r

/-- kalman.c:134-213: the gain from the Jacobian `hd`, the noise and the predicted `P`, the corrected `P` and the corrected, normalised `q`;
`z` is the measurement and `hx` its prediction. -/
def kalmCorrect (junk : Nat → R) (varA varM : R) (z hx : Mtx R) (hd : List R) (P : Mtx R) (q : Quat R) : Out (Mtx R × Quat R) := do
  let (_, H) ← mtxFromArr (Mtx.uninit junk 6 4) hd
  let (_, H) ← mtxScalarMultD H (lit 2)
  let (_, Ht) ← mtxTrans junk H (Mtx.uninit junk 4 6)
  let r ← kalmNoise junk varA varM
  let (_, v) ← mtxSub z hx (Mtx.uninit junk 6 1)
  let (_, HP) ← mtxMult H P (Mtx.uninit junk 6 4)
  let (_, HPHt) ← mtxMult HP Ht (Mtx.uninit junk 6 6)
  let (_, S) ← mtxAdd HPHt r (Mtx.uninit junk 6 6)
  let (_, Si) ← mtxInv junk S (Mtx.uninit junk 6 6)
  let (_, PHt) ← mtxMult P Ht (Mtx.uninit junk 4 6)
  let (_, K) ← mtxMult PHt Si (Mtx.uninit junk 4 6)
  let (_, idx) ← mtxInit (Mtx.uninit junk 4 4) (some entryFnIdentity)
  let (_, KH) ← mtxMult K H (Mtx.uninit junk 4 4)
  let (_, idx) ← mtxSubD idx KH
  let (_, P) ← mtxMult idx P P
  let (_, Kv) ← mtxMult K v (Mtx.uninit junk 4 1)
  let k0 ← rd Kv.data 0
  let k1 ← rd Kv.data 1
  let k2 ← rd Kv.data 2
  let k3 ← rd Kv.data 3
  return (P, quatToUnit ⟨q.r + k0, q.i + k1, q.j + k2, q.k + k3⟩)

/-- kalman.c:85-92: the measurement, `z`. -/
def kalmMeas (a m : Vec R) : Out (Mtx R) := do
  let a0 ← rd a.data 0
  let a1 ← rd a.data 1
  let a2 ← rd a.data 2
  let m0 ← rd m.data 0
  let m1 ← rd m.data 1
  let m2 ← rd m.data 2
  return ⟨6, 1, [a0, a1, a2, m0, m1, m2]⟩

/-- kalman.c:16-217 `zsl_fus_kalman`. Returns the code, the sensors, `P` and `q`. -/
def fusKalman (junk : Nat → R) (freq : Nat) (incl : Option R) (c : KalmCfg R) (s : Sens3 R) (q : Quat R) :
    Out (Int × Sens3 R × Mtx R × Quat R) :=
  match s.a, s.m, s.g with
  | some a, some m, some g =>
    if a.sz ≠ 3 ∨ m.sz ≠ 3 ∨ g.sz ≠ 3 then ok (-EINVAL, s, c.P, q)
    else do
      let (P, q) ← kalmPredict junk freq c.varG g c.P q
      let (_, a) ← vecToUnit a
      let (_, m) ← vecToUnit m
      let z ← kalmMeas a m
      let qm ← quatOfVec m
      let mg := kalmField junk incl q qm
      let (P, q) ← kalmCorrect junk c.varA c.varM z (kalmModel junk q mg) (kalmH q mg) P q
      return (0, ⟨some a, some m, some g⟩, P, q)
  | _, _, _ => ok (-EINVAL, s, c.P, q)

/-- kalman.c:219-262 `zsl_fus_kalm_quat_init`. Returns the code, the quaternion and whether the flag is set. -/
def kalmQuatInit (junk : Nat → R) (a m : Option (Vec R)) (q : Quat R) : Out (Int × Quat R × Bool) :=
  match a, m with
  | some a, some m =>
    if a.sz ≠ 3 ∨ m.sz ≠ 3 then ok (-EINVAL, q, false)
    else do
      let (_, w) ← vecCross a m (Vec.uninit junk 3)
      let (_, v) ← vecCross w a (Vec.uninit junk 3)
      let (_, u) ← vecCopy (Vec.uninit junk 3) a
      let (_, v) ← vecToUnit v
      let (_, w) ← vecToUnit w
      let (_, u) ← vecToUnit u
      let (_, x) ← mtxSetCol (Mtx.uninit junk 3 3) 0 v.data
      let (_, x) ← mtxSetCol x 1 w.data
      let (_, x) ← mtxSetCol x 2 u.data
      let (_, q) ← quatFromRotMtx x q
      return (0, quatToUnit q, true)
  | _, _ => ok (-EINVAL, q, false)

/-- kalman.c:264-283 `zsl_fus_kalm_P_init`. Returns the code, the matrix and whether the flag is set. -/
def kalmPInit (P : Mtx R) : Out (Int × Mtx R × Bool) :=
  if P.rows ≠ 4 ∨ P.cols ≠ 4 then ok (-EINVAL, P, false)
  else do
    let (_, P) ← mtxInit P (some entryFnIdentity)
    return (0, P, true)

/-- kalman.c:307-324 `zsl_fus_kalm_feed`; `started` is `zsl_fus_kalm_initialised`. Returns the code, the sensors, the configuration,
the quaternion and the flag. -/
def fusKalmFeed (junk : Nat → R) (freq : Nat) (incl : Option R) (s : Sens3 R) (c : KalmCfg R) (q : Quat R) (started : Bool) :
    Out (Int × Sens3 R × KalmCfg R × Quat R × Bool) :=
  if CReal.lt c.varG (lit 0) || CReal.lt c.varA (lit 0) || CReal.lt c.varM (lit 0) then ok (-EINVAL, s, c, q, started)
  else if started then do
    let (rc, s, P, q) ← fusKalman junk freq incl c s q
    return (rc, s, { c with P := P }, q, true)
  else do
    let (_, q, b1) ← kalmQuatInit junk s.a s.m q
    let (_, P, b2) ← kalmPInit c.P
    let (rc, s, P, q) ← fusKalman junk freq incl { c with P := P } s q
    return (rc, s, { c with P := P }, q, b1 || b2)

end Verif
