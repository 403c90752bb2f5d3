import Verif.Model.NoChk
import Verif.Model.Statistics

/-!
# Statistics with `CONFIG_ZSL_BOUNDS_CHECKS=n`

The functions of src/statistics.c without the guarded blocks, calling the unchecked functions of `Model/NoChk.lean`. Functions that are
not listed contain no check and call no function with one. An array of no elements (`ZSL_VECTOR_DEF(w, 0)`) is undefined behaviour, as in
`Model/Statistics.lean`; the checks can no longer prevent it.
-/

namespace Verif.NoChk

open Out

variable {R : Type} [CReal R]

/-- statistics.c:158-182 `zsl_sta_percentile`. Bounds checks off. -/
def staPercentile (fuel : Nat) (extra : List R) (junk : Nat → R) (v : Vec R) (p _val : R) : Out (Int × R) :=
  if v.sz = 0 then ub
  else do
    let (_, w) ← vecInit (Vec.uninit junk v.sz)
    let (_, w) ← vecSort fuel extra v w
    let x := (p * CReal.ofNat v.sz) / lit 100
    let per := CReal.floor x
    if CReal.eq x per then do
      let k ← realToInt per
      let a ← rdI w.data k
      let b ← rdI w.data (k - 1)
      return (0, (a + b) / lit 2)
    else do
      let k ← realToInt per
      let a ← rdI w.data k
      return (0, a)

/-- statistics.c:21-55 `zsl_sta_trim_mean`. Bounds checks off. -/
def staTrimMean (fuel : Nat) (extra : List R) (junk : Nat → R) (v : Vec R) (p _m : R) : Out (Int × R) :=
  if v.sz = 0 then ub
  else do
    let (_, perL) ← staPercentile fuel extra junk v p (junk 0)
    let (_, perH) ← staPercentile fuel extra junk v (lit 100 - p) (junk 1)
    let (_, w) ← vecInit (Vec.uninit junk v.sz)
    let (_, w) ← vecSort fuel extra v w
    let (firstVal, count) ← forN v.sz (fun i (s : Nat × Nat) => do
      let a ← rd w.data i
      let count := if CReal.ge a perL && CReal.le a perH then s.2 + 1 else s.2
      return (if count = 1 then i else s.1, count)) (0, 0)
    if count = 0 then ub
    else do
      let (_, sub) ← vecGetSubset w firstVal count (Vec.uninit junk count)
      staMean sub (lit 0)

/-- statistics.c:57-91 `zsl_sta_weighted_mean`. Bounds checks off. -/
def staWeightedMean (v w : Vec R) (_m : R) : Out (Int × R) := do
  let sumw ← forN v.sz (fun i s => do
    let a ← rd w.data i
    return s + a) (lit 0)
  let sumwx ← forN v.sz (fun i s => do
    let a ← rd w.data i
    let b ← rd v.data i
    return s + a * b) (lit 0)
  return (0, sumwx / sumw)

/-- statistics.c:93-138 `zsl_sta_time_weighted_mean`. Bounds checks off. -/
def staTimeWeightedMean (fuel : Nat) (extra : List R) (junk : Nat → R) (v t : Vec R) (_m : R) : Out (Int × R) :=
  if t.sz = 0 ∨ v.sz = 0 then ub
  else do
    let (_, ts) ← vecSort fuel extra t (Vec.uninit junk t.sz)
    let vs ← forN t.sz (fun i vs =>
      forN t.sz (fun g vs => do
        let a ← rd ts.data i
        let b ← rd t.data g
        if CReal.lt (CReal.abs (a - b)) (lit 1e-6) then do
          let x ← rd v.data g
          wr vs i x
        else return vs) vs) (junkArr junk v.sz)
    let sum ← forN (t.sz - 1) (fun j' sum => do
      let t1 ← rd ts.data (j' + 1)
      let t0 ← rd ts.data j'
      let v1 ← rd vs (j' + 1)
      let v0 ← rd vs j'
      return sum + (t1 - t0) * (v1 + v0) / lit 2) (lit 0)
    let l ← rd ts.data (t.sz - 1)
    let f ← rd ts.data 0
    return (0, sum / (l - f))

/-- statistics.c:140-156 `zsl_sta_demean`; `m0` is the content of the uninitialised local `m`. Bounds checks off. -/
def staDemean (m0 : R) (v w : Vec R) : Out (Int × Vec R) :=
  do
    let (_, w) ← vecCopy w v
    let (_, m) ← staMean v m0
    let (_, w) ← vecScalarAdd w (-m)
    return (0, w)

/-- statistics.c:184-189 `zsl_sta_median`. Bounds checks off. -/
def staMedian (fuel : Nat) (extra : List R) (junk : Nat → R) (v : Vec R) (m : R) : Out (Int × R) := do
  let (_, m) ← staPercentile fuel extra junk v (lit 50) m
  return (0, m)

/-- statistics.c:191-233 `zsl_sta_weighted_median`. Bounds checks off. -/
def staWeightedMedian (fuel : Nat) (extra : List R) (junk : Nat → R) (v w : Vec R) (_m : R) : Out (Int × R) :=
  if v.sz = 0 then ub
  else do
    let (lsum, i) ← wmedLoop (w.data.length + 1) w.data (lit 0) 0
    let a ← rdI w.data ((i : Int) - 1)
    let lsum := lsum - a
    let (_, vs) ← vecInit (Vec.uninit junk v.sz)
    let (_, vs) ← vecSort fuel extra v vs
    if CReal.lt (CReal.abs (lsum - lit 0.5)) (lit 1e-6) then do
      let a ← rdI vs.data ((i : Int) - 1)
      let b ← rdI vs.data ((i : Int) - 2)
      return (0, (a + b) / lit 2)
    else do
      let a ← rdI vs.data ((i : Int) - 1)
      return (0, a)

/-- statistics.c:235-243 `zsl_sta_quart`; returns `*q1`, `*q2`, `*q3`. Bounds checks off. -/
def staQuart (fuel : Nat) (extra : List R) (junk : Nat → R) (v : Vec R) (q1 q2 q3 : R) : Out (Int × R × R × R) := do
  let (_, q1) ← staPercentile fuel extra junk v (lit 25) q1
  let (_, q2) ← staPercentile fuel extra junk v (lit 50) q2
  let (_, q3) ← staPercentile fuel extra junk v (lit 75) q3
  return (0, q1, q2, q3)

/-- statistics.c:245-255 `zsl_sta_quart_range`. Bounds checks off. -/
def staQuartRange (fuel : Nat) (extra : List R) (junk : Nat → R) (v : Vec R) : Out (Int × R) := do
  let (_, q1) ← staPercentile fuel extra junk v (lit 25) (junk 0)
  let (_, q3) ← staPercentile fuel extra junk v (lit 75) (junk 1)
  return (0, q3 - q1)

/-- statistics.c:257-307 `zsl_sta_mode`. Bounds checks off. -/
def staMode (junk : Nat → R) (v w : Vec R) : Out (Int × Vec R) :=
  if v.sz = 0 then ub
  else do
    let (_, w) ← vecInit w
    let (u, maxcount) ← forN v.sz (fun i (s : List R × Nat) => do
      let a ← rd v.data i
      let count ← vecContains v a (lit 1e-7)
      let u ← wr s.1 i (CReal.ofNat count)
      return (u, if count > s.2 then count else s.2)) (junkArr junk v.sz, 0)
    let (wt, j) ← forN v.sz (fun i (s : List R × Nat) => do
      let c ← rd u i
      if CReal.eq c (CReal.ofNat maxcount) then do
        let a ← rd v.data i
        let wt ← wr s.1 s.2 a
        return (wt, s.2 + 1)
      else return s) (junkArr junk v.sz, 0)
    let (wd, count) ← forN j (fun i (s : List R × Nat) => do
      let a ← rd wt i
      if CReal.ge a (lit 1e-5) || CReal.le a (lit 1e-5) then do
        let k ← vecContains ⟨w.sz, s.1⟩ a (lit 1e-5)
        if k = 0 then do
          let wd ← wr s.1 s.2 a
          return (wd, s.2 + 1)
        else return s
      else return s) (w.data, 0)
    let z ← vecContains ⟨j, wt⟩ (lit 0) (lit 1e-5)
    let count := if z > 0 then count + 1 else count
    return (0, ⟨count, wd⟩)

/-- statistics.c:320-339 `zsl_sta_mean_abs_dev`. Bounds checks off. -/
def staMeanAbsDev (junk : Nat → R) (v : Vec R) (_m : R) : Out (Int × R) :=
  if v.sz = 0 then ub
  else do
    let (_, d) ← staDemean (junk 0) v (Vec.uninit junk v.sz)
    let sum ← forN v.sz (fun i s => do
      let a ← rd d.data i
      return s + CReal.abs a) (lit 0)
    return (0, sum / CReal.ofNat v.sz)

/-- statistics.c:341-354 `zsl_sta_median_abs_dev`. Bounds checks off. -/
def staMedianAbsDev (fuel : Nat) (extra : List R) (junk : Nat → R) (v : Vec R) (m : R) : Out (Int × R) :=
  if v.sz = 0 then ub
  else do
    let (_, median) ← staMedian fuel extra junk v (junk 0)
    let d ← forN v.sz (fun i d => do
      let a ← rd v.data i
      wr d i (CReal.abs (a - median))) (junkArr junk v.sz)
    let (_, m) ← staMedian fuel extra junk ⟨v.sz, d⟩ m
    return (0, m)

/-- statistics.c:356-370 `zsl_sta_var`; `v->sz - 1` is computed in `size_t`. Bounds checks off. -/
def staVar (junk : Nat → R) (v : Vec R) : Out (Int × R) :=
  if v.sz = 0 then ub
  else do
    let (_, w) ← staDemean (junk 0) v (Vec.uninit junk v.sz)
    let s ← forN v.sz (fun i s => do
      let a ← rd w.data i
      return s + a * a) (lit 0)
    return (0, s / CReal.ofNat (szSub v.sz 1))

/-- statistics.c:372-381 `zsl_sta_std_dev`. Bounds checks off. -/
def staStdDev (junk : Nat → R) (v : Vec R) : Out (Int × R) := do
  let (_, var) ← staVar junk v
  return (0, CReal.sqrt var)

/-- statistics.c:383-406 `zsl_sta_covar`. Bounds checks off. -/
def staCovar (junk : Nat → R) (v w : Vec R) (_c : R) : Out (Int × R) :=
  if v.sz = 0 ∨ w.sz = 0 then ub
  else do
    let (_, vd) ← staDemean (junk 0) v (Vec.uninit junk v.sz)
    let (_, wd) ← staDemean (junk 0) w (Vec.uninit junk w.sz)
    let s ← forN v.sz (fun i s => do
      let a ← rd vd.data i
      let b ← rd wd.data i
      return s + a * b) (lit 0)
    return (0, s / CReal.ofNat (szSub v.sz 1))

/-- statistics.c:408-432 `zsl_sta_covar_mtx`. Bounds checks off. -/
def staCovarMtx (junk : Nat → R) (m mc : Mtx R) : Out (Int × Mtx R) :=
  if m.rows = 0 then ub
  else do
    let (d, _, _) ← forN m.cols (fun i s =>
      forN m.cols (fun j (s : List R × List R × List R) => do
        let (_, v1) ← mtxGetCol m i s.2.1
        let (_, v2) ← mtxGetCol m j s.2.2
        let (_, c) ← staCovar junk ⟨m.rows, v1⟩ ⟨m.rows, v2⟩ (junk 0)
        let d ← wr s.1 (i * m.cols + j) c
        return (d, v1, v2)) s) (mc.data, junkArr junk m.rows, junkArr junk m.rows)
    return (0, { mc with data := d })

/-- statistics.c:434-463 `zsl_sta_linear_reg`. Bounds checks off. -/
def staLinearReg (x y : Vec R) (_c : LinReg R) : Out (Int × LinReg R) :=
  do
    let s ← forN x.sz (fun i (s : RegSums R) => do
      let a ← rd x.data i
      let b ← rd y.data i
      return ⟨s.x + a, s.y + b, s.xy + a * b, s.xx + a * a, s.yy + b * b⟩) ⟨lit 0, lit 0, lit 0, lit 0, lit 0⟩
    let n : R := CReal.ofNat x.sz
    let slope := (n * s.xy - s.x * s.y) / (n * s.xx - s.x * s.x)
    let intercept := (s.y - slope * s.x) / n
    let correlation := (n * s.xy - s.x * s.y) / CReal.sqrt ((n * s.xx - s.x * s.x) * (n * s.yy - s.y * s.y))
    return (0, ⟨slope, intercept, correlation⟩)

/-- statistics.c:486-497 and 572-582: the matrix with a column of ones in front; `a` is the local array `v`. Bounds checks off. -/
def regExpand (junk : Nat → R) (x : Mtx R) : Out (Mtx R) := do
  let (_, xe) ← mtxInit (Mtx.uninit junk x.rows (x.cols + 1)) none
  let a ← forN x.rows (fun i a => wr a i (lit 1)) (junkArr junk x.rows)
  let (_, xe) ← mtxSetCol xe 0 a
  let (xe, _) ← forN x.cols (fun j (s : Mtx R × List R) => do
    let (_, a) ← mtxGetCol x j s.2
    let (_, xe) ← mtxSetCol s.1 (j + 1) a
    return (xe, a)) (xe, a)
  return xe

/-- statistics.c:518-530 and 601-613: the coefficient of determination. Bounds checks off. -/
def regQuality (junk : Nat → R) (xe bm ym : Mtx R) (y : Vec R) : Out R := do
  let (_, t2) ← mtxMult xe bm (Mtx.uninit junk xe.rows 1)
  let (_, e) ← mtxSub ym t2 (Mtx.uninit junk xe.rows 1)
  let (_, ymean) ← staMean y (junk 0)
  let (en, ys) ← forN xe.rows (fun g (s : R × R) => do
    let a ← rd e.data g
    let b ← rd y.data g
    return (s.1 + a * a, s.2 + (b - ymean) * (b - ymean))) (lit 0, lit 0)
  return lit 1 - en / ys

/-- statistics.c:466-531 `zsl_sta_mult_linear_reg`; returns `b` and `*r`. Bounds checks off. -/
def staMultLinearReg (junk : Nat → R) (x : Mtx R) (y b : Vec R) (r : R) : Out (Int × Vec R × R) :=
  if x.rows = 0 ∨ y.sz = 0 then ub
  else do
    let xe ← regExpand junk x
    let (_, xt) ← mtxTrans junk xe (Mtx.uninit junk (x.cols + 1) x.rows)
    let (_, xx) ← mtxMult xt xe (Mtx.uninit junk (x.cols + 1) (x.cols + 1))
    let (_, det) ← mtxDeter junk xx (junk 0)
    if CReal.lt (CReal.abs det) (lit 1e-6) then return (-EINVAL, b, r)
    else do
      let (_, xinv) ← mtxInv junk xx (Mtx.uninit junk (x.cols + 1) (x.cols + 1))
      let (_, ym) ← mtxFromArr (Mtx.uninit junk y.sz 1) y.data
      let (_, t) ← mtxMult xinv xt (Mtx.uninit junk (x.cols + 1) x.rows)
      let (_, bm) ← mtxMult t ym (Mtx.uninit junk (x.cols + 1) 1)
      let (_, b) ← vecFromArr b bm.data
      let r ← regQuality junk xe bm ym y
      return (0, b, r)

/-- statistics.c:535-614 `zsl_sta_weighted_mult_linear_reg`; returns `w`, `b` and `*r`. Bounds checks off. -/
def staWeightedMultLinearReg (junk : Nat → R) (x : Mtx R) (y w b : Vec R) (r : R) : Out (Int × Vec R × Vec R × R) :=
  if x.rows = 0 ∨ y.sz = 0 ∨ w.sz = 0 then ub
  else do
    let (_, idx) ← mtxInit (Mtx.uninit junk w.sz w.sz) (some entryFnIdentity)
    let (wd, idx) ← forN w.sz (fun k (s : List R × Mtx R) => do
      let a ← rd s.1 k
      let wd ← wr s.1 k (lit 1 / a)
      let a ← rd wd k
      let (_, idx) ← mtxScalarMultRowD s.2 k a
      return (wd, idx)) (w.data, idx)
    let w : Vec R := { w with data := wd }
    let xe ← regExpand junk x
    let (_, xt) ← mtxTrans junk xe (Mtx.uninit junk (x.cols + 1) x.rows)
    let (_, xw) ← mtxMult xt idx (Mtx.uninit junk (x.cols + 1) x.rows)
    let (_, xx) ← mtxMult xw xe (Mtx.uninit junk (x.cols + 1) (x.cols + 1))
    let (_, det) ← mtxDeter junk xx (junk 0)
    if CReal.lt (CReal.abs det) (lit 1e-6) then return (-EINVAL, w, b, r)
    else do
      let (_, xinv) ← mtxInv junk xx (Mtx.uninit junk (x.cols + 1) (x.cols + 1))
      let (_, ym) ← mtxFromArr (Mtx.uninit junk y.sz 1) y.data
      let (_, t) ← mtxMult xinv xw (Mtx.uninit junk (x.cols + 1) x.rows)
      let (_, bm) ← mtxMult t ym (Mtx.uninit junk (x.cols + 1) 1)
      let (_, b) ← vecFromArr b bm.data
      let r ← regQuality junk xe bm ym y
      return (0, w, b, r)

/-- statistics.c:618-662 `zsl_sta_quad_fit`. Bounds checks off. -/
def staQuadFit (junk : Nat → R) (m : Mtx R) (b : Vec R) : Out (Int × Vec R) :=
  if m.rows = 0 then ub
  else do
    let (x, y, _, _) ← forN m.rows (fun i (s : Mtx R × List R × List R × List R) => do
      let (_, mv) ← mtxGetRow m i s.2.2.1
      let xv ← quadRow mv s.2.2.2
      let (_, x) ← mtxSetRow s.1 i xv
      let y ← wr s.2.1 i (lit 1)
      return (x, y, mv, xv)) (Mtx.uninit junk m.rows 9, junkArr junk m.rows, junkArr junk 3, junkArr junk 9)
    let (_, xt) ← mtxTrans junk x (Mtx.uninit junk 9 m.rows)
    let (_, xtx) ← mtxMult xt x (Mtx.uninit junk 9 9)
    let (_, inv) ← mtxInv junk xtx (Mtx.uninit junk 9 9)
    let (_, t) ← mtxMult inv xt (Mtx.uninit junk 9 m.rows)
    let (_, bt) ← mtxMult t ⟨m.rows, 1, y⟩ (Mtx.uninit junk 9 1)
    let (_, b) ← vecFromArr b bt.data
    return (0, b)

/-- statistics.c:679-693 `zsl_sta_sta_err`. Bounds checks off. -/
def staStaErr (junk : Nat → R) (v : Vec R) (_err : R) : Out (Int × R) :=
  do
    let (_, var) ← staVar junk v
    return (0, CReal.sqrt (var / CReal.ofNat v.sz))

end Verif.NoChk
