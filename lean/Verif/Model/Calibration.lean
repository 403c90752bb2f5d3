import Verif.Model.Fusion
import Verif.Model.MatDecomp
import Verif.Model.Statistics

/-!
# Model of src/orientation/fusion/calibration.c

Bounds checks are compiled in, double precision (`CONFIG_ZSL_SINGLE_PRECISION` off). `junk` is the content of uninitialised locals.
Outputs are returned next to the code; on an error they are what they were before.
-/

namespace Verif

open Out

variable {R : Type} [CReal R]

/-- calibration.c:50-72 `zsl_fus_cal_rot_mtx`. -/
def calRotMtx (junk : Nat → R) (v : Vec R) (m : Mtx R) (vRot : Vec R) : Out (Int × Vec R) :=
  if v.sz ≠ 3 ∨ vRot.sz ≠ 3 ∨ m.rows ≠ 3 ∨ m.cols ≠ 3 then ok (-EINVAL, vRot)
  else do
    let (_, vm) ← mtxFromArr (Mtx.uninit junk 3 1) v.data
    let (_, mv) ← mtxMult m vm (Mtx.uninit junk 3 1)
    let (_, vRot) ← vecFromArr vRot mv.data
    return (0, vRot)

/-- calibration.c:74-95 `zsl_fus_cal_rot_axis_angle`. -/
def calRotAxisAngle (junk : Nat → R) (v a : Vec R) (b : R) (vRot : Vec R) : Out (Int × Vec R) :=
  if v.sz ≠ 3 ∨ vRot.sz ≠ 3 ∨ a.sz ≠ 3 then ok (-EINVAL, vRot)
  else do
    let (_, q) ← quatFromAxisAngle junk a b (quatJunk junk)
    let (_, m) ← quatToRotMtx q (Mtx.uninit junk 3 3)
    let (_, vRot) ← calRotMtx junk v m vRot
    return (0, vRot)

/-- calibration.c:397-405 `zsl_fus_cal_corr_scalar`. -/
def calCorrScalar (d k b : R) : Int × R := (0, k * (d + b))

/-- calibration.c:407-429 `zsl_fus_cal_corr_vec`. Local arrays of size zero are undefined behaviour. -/
def calCorrVec (junk : Nat → R) (v : Vec R) (K : Mtx R) (b vOut : Vec R) : Out (Int × Vec R) :=
  if v.sz ≠ vOut.sz ∨ v.sz ≠ K.rows ∨ v.sz ≠ K.cols ∨ v.sz ≠ b.sz then ok (-EINVAL, vOut)
  else if v.sz = 0 then ub
  else do
    let (_, vb) ← vecAdd v b (Vec.uninit junk v.sz)
    let (_, VB) ← mtxFromArr (Mtx.uninit junk v.sz 1) vb.data
    let (_, KVB) ← mtxMult K VB (Mtx.uninit junk v.sz 1)
    let (_, vOut) ← vecFromArr vOut KVB.data
    return (0, vOut)

/-- `(uint32_t)x`: undefined behaviour if the truncated value does not fit. Used for the argument of the init call, calibration.c:467 and 554 (an implicit conversion to the parameter of madgwick.h:57, mahony.h:72). -/
def realToU32 (x : R) : Out Nat :=
  match CReal.trunc x with
  | some z => if 0 ≤ z ∧ z < 4294967296 then ok z.toNat else ub
  | none => ub

/-- calibration.c:476-478 and 563-565: row `j` of a data matrix, copied into a local three-dimensional vector. The vectors are
overwritten in every pass before they are used, so they are not carried from one pass to the next. -/
def calRow (junk : Nat → R) (m : Mtx R) (j : Nat) : Out (Vec R) := do
  let (_, d) ← mtxGetRow m j (junkArr junk 3)
  return ⟨3, d⟩

/-- calibration.c:482-490 and 569-577: the squared differences of roll and pitch between the attitude `q` and the accelerometer
reading `av`, added to the sums `Sx` and `Sy`. -/
def calTilt (junk : Nat → R) (q : Quat R) (av : Vec R) (Sx Sy : R) : Out (R × R) := do
  let e := quatToEuler q
  let ex := e.x * (lit 180 / zslPi)
  let ey := e.y * (lit 180 / zslPi)
  let (_, att) ← attFromAccel junk av ⟨junk 0, junk 1, junk 2⟩
  return (Sx + (ex - att.roll) * (ex - att.roll), Sy + (ey - att.pitch) * (ey - att.pitch))

/-- calibration.c:492-495 and 579-582: the accumulated error of a candidate, from the two sums over `n` rows. -/
def calTotal (n : Nat) (Sx Sy : R) : R :=
  (CReal.sqrt (Sx / CReal.ofNat n) + CReal.sqrt (Sy / CReal.ofNat n)) / lit 2

/-- The accelerometer vector a feed leaves behind; it was passed as a valid pointer. calibration.c:482-490. -/
def sensVec (v : Option (Vec R)) : Out (Vec R) :=
  match v with
  | none => ub
  | some v => ok v

/-- calibration.c:470-495: the run of the Madgwick filter over all rows with the gain `beta`, from the identity; the accumulated error. -/
def calMadgError (junk : Nat → R) (freq : Nat) (incl : Option R) (g a m : Mtx R) (beta : R) : Out R := do
  let s ← forN a.rows (fun j (s : Quat R × R × R) => do
    let gv ← calRow junk g j
    let av ← calRow junk a j
    let mv ← calRow junk m j
    let (_, sens, q) ← fusMadgFeed junk freq incl beta ⟨some av, some mv, gv⟩ s.1
    let av ← sensVec sens.a
    let (Sx, Sy) ← calTilt junk q av s.2.1 s.2.2
    return (q, Sx, Sy)) (quatIdentity, lit 0, lit 0)
  return calTotal a.rows s.2.1 s.2.2

/-- calibration.c:497-504 and 584-591: one candidate of the search: `Smin` is set to zero in every pass before it is compared. The state is
`*beta`. -/
def calKeep (i : Nat) (St cand best : R) : R :=
  let Smin : R := lit 0
  if i = 0 then cand else if CReal.lt St Smin then cand else best

/-- calibration.c:431-509 `zsl_fus_cal_madg`; `old` is the frequency the filter was last initialised with, `beta` the previous value of
`*beta`. The frequency set by this call stays with the filter and is not returned. -/
def calMadg (junk : Nat → R) (old : Nat) (g a m : Mtx R) (sampleFreq : R) (incl : Option R) (beta : R) : Out (Int × R) :=
  if g.cols ≠ 3 ∨ a.cols ≠ 3 ∨ m.cols ≠ 3 ∨ CReal.lt sampleFreq (lit 0) = true ∨ g.rows ≠ a.rows ∨ g.rows ≠ m.rows then
    ok (-EINVAL, beta)
  else do
    let f ← realToU32 sampleFreq
    let (_, freq) := fusInit f old
    let beta ← forN 1000 (fun i beta => do
      let cand := CReal.ofNat i / lit 1000
      let St ← calMadgError junk freq incl g a m cand
      return calKeep i St cand beta) beta
    return (0, beta)

/-- calibration.c:557-582: the run of the Mahony filter over all rows with the gain `kp`, from the identity; the accumulated error and
the integral feedback, which is carried over to the next candidate. `ki` is 0.02 and the limit of the integral is zero (calibration.c:528-535:
members left out of an initialiser). -/
def calMahnError (junk : Nat → R) (freq : Nat) (incl : Option R) (g a m : Mtx R) (kp : R) (fb : Vec R) : Out (R × Vec R) := do
  let s ← forN a.rows (fun j (s : Quat R × Vec R × R × R) => do
    let gv ← calRow junk g j
    let av ← calRow junk a j
    let mv ← calRow junk m j
    let (_, sens, c, q) ← fusMahnFeed junk freq incl ⟨some av, some mv, gv⟩ ⟨kp, lit 0.02, lit 0, s.2.1⟩ s.1
    let av ← sensVec sens.a
    let (Sx, Sy) ← calTilt junk q av s.2.2.1 s.2.2.2
    return (q, c.intfb, Sx, Sy)) (quatIdentity, fb, lit 0, lit 0)
  return (calTotal a.rows s.2.2.1 s.2.2.2, s.2.1)

/-- calibration.c:511-596 `zsl_fus_cal_mahn`; parameters as for `calMadg`. -/
def calMahn (junk : Nat → R) (old : Nat) (g a m : Mtx R) (sampleFreq : R) (incl : Option R) (kp : R) : Out (Int × R) :=
  if g.cols ≠ 3 ∨ a.cols ≠ 3 ∨ m.cols ≠ 3 ∨ CReal.lt sampleFreq (lit 0) = true ∨ g.rows ≠ a.rows ∨ g.rows ≠ m.rows then
    ok (-EINVAL, kp)
  else do
    let f ← realToU32 sampleFreq
    let (_, freq) := fusInit f old
    let s ← forN 1000 (fun i (s : R × Vec R) => do
      let cand := CReal.ofNat i / lit 1000
      let (St, fb) ← calMahnError junk freq incl g a m cand s.2
      return (calKeep i St cand s.1, fb)) (kp, ⟨3, [lit 0, lit 0, lit 0]⟩)
    return (0, s.1)

/-- calibration.c:362-369: the symmetric matrix of the fitted quadric. -/
def calQuadric (c : List R) : Out (Mtx R) := do
  let c0 ← rd c 0
  let c1 ← rd c 1
  let c2 ← rd c 2
  let c3 ← rd c 3
  let c4 ← rd c 4
  let c5 ← rd c 5
  return ⟨3, 3, [c0, c3, c4, c3, c1, c5, c4, c5, c2]⟩

/-- calibration.c:337-394 `zsl_fus_cal_magn_fast`; `me` NULL is `none`. Returns the code, `K` and `b`. -/
def calMagnFast (junk : Nat → R) (m : Mtx R) (me : Option R) (K : Mtx R) (b : Vec R) : Out (Int × Mtx R × Vec R) :=
  let me := me.getD (lit 50)
  if m.cols ≠ 3 ∨ K.rows ≠ 3 ∨ K.cols ≠ 3 ∨ b.sz ≠ 3 ∨ CReal.lt me (lit 0) = true then ok (-EINVAL, K, b)
  else do
    let (_, coef) ← staQuadFit junk m (Vec.uninit junk 9)
    let A ← calQuadric coef.data
    let v0 ← rd coef.data 6
    let v1 ← rd coef.data 7
    let v2 ← rd coef.data 8
    let (_, L) ← mtxCholesky (junk 0) A (Mtx.uninit junk 3 3)
    let (_, G) ← mtxTrans junk L (Mtx.uninit junk 3 3)
    let (_, G) ← mtxScalarMultD G me
    let (_, K) ← mtxCopy K G
    let (_, Ai) ← mtxInv junk A (Mtx.uninit junk 3 3)
    let (_, X0) ← mtxMult Ai ⟨3, 1, [v0, v1, v2]⟩ (Mtx.uninit junk 3 1)
    let x0 ← rd X0.data 0
    let x1 ← rd X0.data 1
    let x2 ← rd X0.data 2
    let d ← wr b.data 0 x0
    let d ← wr d 1 x1
    let d ← wr d 2 x2
    return (0, K, { b with data := d })

/-! ### Magnetometer calibration by sphere and ellipsoid fitting -/

/-- calibration.c:15-21 `zsl_fus_cal_magn_f_shp`. -/
def calFShp (junk : Nat → R) (H b : Vec R) : Out R := do
  let (_, Hb) ← vecAdd H b (Vec.uninit junk 3)
  vecNorm Hb

/-- calibration.c:28-33 and 320-325: the symmetric matrix whose upper triangle is the first six parameters. -/
def calSym (g : List R) : Out (List R) := do
  let g0 ← rd g 0
  let g1 ← rd g 1
  let g2 ← rd g 2
  let g3 ← rd g 3
  let g4 ← rd g 4
  let g5 ← rd g 5
  return [g0, g1, g2, g1, g3, g4, g2, g4, g5]

/-- calibration.c:25-47 `zsl_fus_cal_magn_f_elli`. -/
def calFElli (junk : Nat → R) (H : Vec R) (g : List R) : Out R := do
  let K ← calSym g
  let h0 ← rd H.data 0
  let h1 ← rd H.data 1
  let h2 ← rd H.data 2
  let g6 ← rd g 6
  let g7 ← rd g 7
  let g8 ← rd g 8
  let (_, KHb) ← mtxMult ⟨3, 3, K⟩ ⟨3, 1, [h0 + g6, h1 + g7, h2 + g8]⟩ (Mtx.uninit junk 3 1)
  let (_, Hd) ← vecFromArr (Vec.uninit junk 3) KHb.data
  vecNorm Hd

/-- calibration.c:124-129: for each axis the middle of the range (negated, into `b`) and half the range (added up). -/
def calCentre (fuel : Nat) (extra : List R) (junk : Nat → R) (m : Mtx R) (b : Vec R) : Out (List R × R) := do
  let s ← forN 3 (fun i (s : List R × R × List R × List R) => do
    let (_, v) ← mtxGetCol m i s.2.2.1
    let (_, w) ← vecSort fuel extra ⟨m.rows, v⟩ ⟨m.rows, s.2.2.2⟩
    let hi ← rd w.data (szSub m.rows 1)
    let lo ← rd w.data 0
    let d ← wr s.1 i (-(hi + lo) / lit 2)
    return (d, s.2.1 + (hi - lo) / lit 2, v, w.data)) (b.data, lit 0, junkArr junk m.rows, junkArr junk m.rows)
  return (s.1, s.2.1)

/-- Write the damped diagonal: calibration.c:166-169 and 275-283. -/
def calDamp (n : Nat) (l : R) (jtj idx : Mtx R) : Out (Mtx R) := do
  let d ← forN n (fun k d => do
    let x ← rd jtj.data (k * (n + 1))
    wr d (k * (n + 1)) (l * x)) idx.data
  return { idx with data := d }

/-- calibration.c:160-173 and 269-287: one Levenberg-Marquardt step with the Jacobian row `J` of `n` entries and the residual `r`:
the matrix left in `idx`, and `tau`. -/
def calTau (junk : Nat → R) (n : Nat) (l : R) (J idx : Mtx R) (r : R) : Out (Mtx R × Mtx R) := do
  let (_, Jt) ← mtxTrans junk J (Mtx.uninit junk n 1)
  let (_, JtJ) ← mtxMult Jt J (Mtx.uninit junk n n)
  let idx ← calDamp n l JtJ idx
  let (_, JtJ) ← mtxAddD JtJ idx
  let (_, idx) ← mtxInv junk JtJ idx
  let (_, t) ← mtxMult idx Jt (Mtx.uninit junk n 1)
  let (_, t) ← mtxScalarMultD t r
  return (idx, t)

/-- calibration.c:187-197 and 305-315: the damping after a step, from the residual `r` of the next sample: the new sum and `*l`. -/
def calLambda (j : Nat) (S r l mu : R) : R × R :=
  let S2 := (S * CReal.ofNat j + r * r) / CReal.ofNat (j + 1)
  (S2, if CReal.lt S2 S then l / mu else l * mu)

/-- calibration.c:149-157: the Jacobian row of the sphere. -/
def calJacShp (junk : Nat → R) (m : Mtx R) (b : Vec R) : Out (List R) :=
  forN m.rows (fun i (J : List R) => do
    let H ← calRow junk m i
    let f ← calFShp junk H b
    let h0 ← rd H.data 0
    let h1 ← rd H.data 1
    let h2 ← rd H.data 2
    let b0 ← rd b.data 0
    let b1 ← rd b.data 1
    let b2 ← rd b.data 2
    let j0 ← rd J 0
    let j1 ← rd J 1
    let j2 ← rd J 2
    let j3 ← rd J 3
    return [j0 + lit 1, j1 + -(h0 - b0) / f, j2 + -(h1 - b1) / f, j3 + -(h2 - b2) / f]) [lit 0, lit 0, lit 0, lit 0]

/-- State of the fits: radius, centre, damping, sum, work matrix. The locals of calibration.c:98-333. -/
structure CalFit (R : Type) where
  rad : R
  b : List R
  l : R
  S : R
  idx : Mtx R

/-- calibration.c:146-199: one pass of the sphere fit. -/
def calSphere (junk : Nat → R) (m : Mtx R) (mu : R) (j : Nat) (s : CalFit R) : Out (CalFit R) := do
  let J ← calJacShp junk m ⟨3, s.b⟩
  let H ← calRow junk m j
  let f ← calFShp junk H ⟨3, s.b⟩
  let (idx, t) ← calTau junk 4 s.l ⟨1, 4, J⟩ s.idx (-(s.rad - f))
  let t0 ← rd t.data 0
  let t1 ← rd t.data 1
  let t2 ← rd t.data 2
  let t3 ← rd t.data 3
  let b0 ← rd s.b 0
  let b1 ← rd s.b 1
  let b2 ← rd s.b 2
  let rad := s.rad + t0
  let d ← wr s.b 0 (b0 + t1)
  let d ← wr d 1 (b1 + t2)
  let d ← wr d 2 (b2 + t3)
  if j < szSub m.rows 1 then do
    let H ← calRow junk m (j + 1)
    let f ← calFShp junk H ⟨3, d⟩
    let (S, l) := calLambda j s.S (rad - f) s.l mu
    return ⟨rad, d, l, S, idx⟩
  else return ⟨rad, d, s.l, s.S, idx⟩

/-- calibration.c:236-266: the Jacobian row of the ellipsoid with parameters `g`; the offset used is `b`, the result of the sphere fit. -/
def calJacElli (junk : Nat → R) (m : Mtx R) (g b : List R) : Out (List R) :=
  forN m.rows (fun i (N : List R) => do
    let H ← calRow junk m i
    let f ← calFElli junk H g
    let h0 ← rd H.data 0
    let h1 ← rd H.data 1
    let h2 ← rd H.data 2
    let b0 ← rd b 0
    let b1 ← rd b 1
    let b2 ← rd b 2
    let g0 ← rd g 0
    let g1 ← rd g 1
    let g2 ← rd g 2
    let g3 ← rd g 3
    let g4 ← rd g 4
    let g5 ← rd g 5
    let A := g0 * (h0 + b0) + g1 * (h1 + b1) + g2 * (h2 + b2)
    let B := g1 * (h0 + b0) + g3 * (h1 + b1) + g4 * (h2 + b2)
    let C := g2 * (h0 + b0) + g4 * (h1 + b1) + g5 * (h2 + b2)
    let n0 ← rd N 0
    let n1 ← rd N 1
    let n2 ← rd N 2
    let n3 ← rd N 3
    let n4 ← rd N 4
    let n5 ← rd N 5
    let n6 ← rd N 6
    let n7 ← rd N 7
    let n8 ← rd N 8
    return [n0 + -(h0 + b0) * A / f, n1 + -(h1 + b1) * B / f, n2 + -(h2 + b2) * C / f,
      n3 + -((h1 + b1) * A + (h0 + b0) * B) / f, n4 + -((h2 + b2) * A + (h0 + b0) * C) / f,
      n5 + -((h2 + b2) * B + (h1 + b1) * C) / f, n6 + -A / f, n7 + -B / f, n8 + -C / f])
    (List.replicate 9 (lit 0))

/-- calibration.c:235-317: one pass of the ellipsoid fit; in the state `b` are the nine parameters and `rad` does not change. -/
def calEllipsoid (junk : Nat → R) (m : Mtx R) (mu : R) (b : List R) (j : Nat) (s : CalFit R) : Out (CalFit R) := do
  let N ← calJacElli junk m s.b b
  let H ← calRow junk m j
  let f ← calFElli junk H s.b
  let (idx, t) ← calTau junk 9 s.l ⟨1, 9, N⟩ s.idx (-(s.rad - f))
  let d ← forN 9 (fun k d => do
    let x ← rd d k
    let y ← rd t.data k
    wr d k (x + y)) s.b
  if j < szSub m.rows 1 then do
    let H ← calRow junk m (j + 1)
    let f ← calFElli junk H d
    let (S, l) := calLambda j s.S (s.rad - f) s.l mu
    return ⟨s.rad, d, l, S, idx⟩
  else return ⟨s.rad, d, s.l, s.S, idx⟩

/-- calibration.c:98-333 `zsl_fus_cal_magn`. Returns the code, `*l`, `K` and `b`. -/
def calMagn (fuel : Nat) (extra : List R) (junk : Nat → R) (m : Mtx R) (l mu : R) (K : Mtx R) (b : Vec R) :
    Out (Int × R × Mtx R × Vec R) :=
  if m.cols ≠ 3 ∨ K.rows ≠ 3 ∨ K.cols ≠ 3 ∨ b.sz ≠ 3 ∨ CReal.lt mu (lit 1) = true then ok (-EINVAL, l, K, b)
  else if m.rows = 0 then ub
  else do
    let (d, mean) ← calCentre fuel extra junk m b
    let (_, idx) ← mtxInit (Mtx.uninit junk 4 4) (some entryFnIdentity)
    let s ← forN m.rows (fun j s => calSphere junk m mu j s) ⟨mean / lit 3, d, l, lit 0, idx⟩
    let (_, K) ← mtxInit K (some entryFnIdentity)
    let b0 ← rd s.b 0
    let b1 ← rd s.b 1
    let b2 ← rd s.b 2
    let (_, idxN) ← mtxInit (Mtx.uninit junk 9 9) (some entryFnIdentity)
    let e ← forN m.rows (fun j e => calEllipsoid junk m mu s.b j e)
      ⟨s.rad, [lit 1, lit 0, lit 0, lit 1, lit 0, lit 1, b0, b1, b2], l, lit 0, idxN⟩
    let k ← calSym e.b
    let kd ← forN 9 (fun i d => do
      let x ← rd k i
      wr d i x) K.data
    let g6 ← rd e.b 6
    let g7 ← rd e.b 7
    let g8 ← rd e.b 8
    let d ← wr s.b 0 g6
    let d ← wr d 1 g7
    let d ← wr d 2 g8
    return (0, e.l, { K with data := kd }, { b with data := d })

end Verif
