import Verif.Model.ColorTables
import Verif.Model.Interp
import Verif.Model.Matrices

/-!
# Model of src/colorimetry

The one-bit flags are Booleans. The enumerations take no values but their enumerators. Pointers are not NULL and inputs and outputs
do not overlap. The pointer results of the `_get` functions are modelled by the tables they point to.
-/

namespace Verif

open Out

variable {R : Type} [CReal R]

/-- include/zsl/colorimetry.h:258-275 `struct zsl_clr_xyz`. -/
structure Xyz (R : Type) where
  x : R
  y : R
  z : R
  obs : Obs
  illum : Illum
  xInv : Bool
  yInv : Bool
  zInv : Bool

/-- include/zsl/colorimetry.h:280-297 `struct zsl_clr_xyy`; `Y` is the luminance `xyy_Y`. -/
structure Xyy (R : Type) where
  x : R
  y : R
  Y : R
  obs : Obs
  illum : Illum
  xInv : Bool
  yInv : Bool
  YInv : Bool

/-- include/zsl/colorimetry.h:302-315 `struct zsl_clr_uv60`. -/
structure Uv60 (R : Type) where
  u : R
  v : R
  obs : Obs
  illum : Illum
  uInv : Bool
  vInv : Bool

/-- include/zsl/colorimetry.h:320-333 `struct zsl_clr_uv76`. -/
structure Uv76 (R : Type) where
  u : R
  v : R
  obs : Obs
  illum : Illum
  uInv : Bool
  vInv : Bool

/-- include/zsl/colorimetry.h:338-355 `struct zsl_clr_rgbf`. -/
structure Rgbf (R : Type) where
  r : R
  g : R
  b : R
  a : R
  rInv : Bool
  gInv : Bool
  bInv : Bool
  aInv : Bool

/-- include/zsl/colorimetry.h:360-377 `struct zsl_clr_rgb8`; a `uint8_t` is a natural number. -/
structure Rgb8 where
  r : Nat
  g : Nat
  b : Nat
  a : Nat
  rInv : Bool
  gInv : Bool
  bInv : Bool
  aInv : Bool

/-- include/zsl/colorimetry.h:406-426 `struct zsl_clr_cct`. -/
structure Cct (R : Type) where
  cct : R
  duv : R
  cctInv : Bool
  duvInv : Bool

/-- include/zsl/colorimetry.h:515-524 `struct zsl_clr_spd`: `size` and the flexible array `comps` of pairs `nm`, `value`. -/
structure Spd (R : Type) where
  size : Nat
  comps : List (Nat × R)

/-- observers.c:232-243 `zsl_clr_obs_get`. -/
def clrObsGet : Obs → List (ℚ × ℚ × ℚ)
  | .deg2 => obs2Deg
  | .deg10 => obs10Deg

/-- conv.c:423-489 `zsl_clr_conv_spd_xyz`. Simplification: the loop counter and `matches` do not overflow (sizes below 2^31). -/
def clrSpdXyz (spd : Spd R) (obs : Obs) : Out (Int × Xyz R) :=
  let bad : Xyz R → Xyz R := fun o => { o with xInv := true, yInv := true, zInv := true }
  let z : Xyz R := ⟨lit 0, lit 0, lit 0, .deg2, .A, false, false, false⟩
  if spd.size < 1 then ok (-EINVAL, bad z)
  else do
    let data := clrObsGet obs
    let (z, matched) ← forN spd.size (fun i (z, matched) => do
      let c ← rd spd.comps i
      if c.1 > 359 ∧ c.1 < 831 then do
        let row ← rd data ((c.1 - 360) / 5)
        return ({ z with x := z.x + c.2 * lit row.1, y := z.y + c.2 * lit row.2.1, z := z.z + c.2 * lit row.2.2 },
          matched + 1)
      else return (z, matched)) (z, 0)
    if matched = 0 then return (-EINVAL, bad z)
    else
      let x := z.x / CReal.ofNat matched
      let y := z.y / CReal.ofNat matched
      let w := z.z / CReal.ofNat matched
      return (0, { z with x := x / y, z := w / y, y := lit 1, obs := obs })

/-- conv.c:491-508 `zsl_clr_conv_xyy_xyz`; `o` is the previous content of the output. -/
def clrXyyXyz (c : Xyy R) (o : Xyz R) : Xyz R :=
  { o with
    x := c.x * c.Y / c.y
    y := c.Y
    z := (lit 1 - c.x - c.y) * c.Y / c.y
    obs := c.obs
    illum := c.illum }

/-- conv.c:510-525 `zsl_clr_conv_xyz_xyy`. -/
def clrXyzXyy (c : Xyz R) (o : Xyy R) : Xyy R :=
  { o with
    x := c.x / (c.x + c.y + c.z)
    y := c.y / (c.x + c.y + c.z)
    Y := c.y
    obs := c.obs
    illum := c.illum }

/-- conv.c:527-542 `zsl_clr_conv_xyy_uv60`. -/
def clrXyyUv60 (c : Xyy R) (o : Uv60 R) : Uv60 R :=
  { o with
    u := lit 4 * c.x / (lit 2 * c.x * lit (-1) + lit 12 * c.y + lit 3)
    v := lit 6 * c.y / (lit 2 * c.x * lit (-1) + lit 12 * c.y + lit 3)
    obs := c.obs
    illum := c.illum }

/-- conv.c:544-556 `zsl_clr_conv_xyz_uv60`; `t` is the uninitialised local. -/
def clrXyzUv60 (t : Xyy R) (c : Xyz R) (o : Uv60 R) : Uv60 R := clrXyyUv60 (clrXyzXyy c t) o

/-- conv.c:572-586 `zsl_clr_conv_uv60_xyy`. -/
def clrUv60Xyy (c : Uv60 R) : Xyy R :=
  { x := (lit 3 * c.u) / (lit 2 * c.u - lit 8 * c.v + lit 4)
    y := (lit 2 * c.v) / (lit 2 * c.u - lit 8 * c.v + lit 4)
    Y := lit 1
    obs := c.obs
    illum := c.illum
    xInv := false
    yInv := false
    YInv := false }

/-- conv.c:558-570 `zsl_clr_conv_uv60_xyz`. -/
def clrUv60Xyz (c : Uv60 R) (o : Xyz R) : Xyz R := clrXyyXyz (clrUv60Xyy c) o

/-- conv.c:588-599 `zsl_clr_conv_uv60_uv76`. -/
def clrUv60Uv76 (c : Uv60 R) : Uv76 R := ⟨c.u, c.v * lit 1.5, c.obs, c.illum, c.uInv, c.vInv⟩

/-- conv.c:601-612 `zsl_clr_conv_uv76_uv60`. -/
def clrUv76Uv60 (c : Uv76 R) : Uv60 R := ⟨c.u, c.v / lit 1.5, c.obs, c.illum, c.uInv, c.vInv⟩

/-- conv.c:637-691 `zsl_clr_conv_ct_xyz`. The loop over `nm = 360, 365, ..., 830` is counted by its table index. -/
def clrCtXyz (ct : R) (obs : Obs) : Out (Int × Xyz R) := do
  let c1 : R := lit 374.183162616761619
  let c2 : R := lit 14.387863142323088
  let data := clrObsGet obs
  let z : Xyz R := ⟨lit 0, lit 0, lit 0, .deg2, .A, false, false, false⟩
  let z ← forN 95 (fun k z => do
    let nm := 360 + 5 * k
    let i := (nm - 360) / 5
    let d := CReal.ofNat nm * lit 1e-3
    let d5 := d * d * d * d * d
    let bbody := c1 / (d5 * lit 1e-12 * CReal.expm1 (c2 / (ct * d * lit 1e-3)))
    let row ← rd data i
    return { z with x := z.x + bbody * lit row.1, y := z.y + bbody * lit row.2.1, z := z.z + bbody * lit row.2.2 }) z
  return (0, { z with x := z.x / z.y, z := z.z / z.y, y := lit 1, obs := obs })

/-- conv.c:614-635 `zsl_clr_conv_ct_uv60`; `t` is the uninitialised local of `zsl_clr_conv_xyz_uv60`. The conversions it calls cannot
fail. -/
def clrCtUv60 (t : Xyy R) (ct : R) (obs : Obs) (o : Uv60 R) : Out (Int × Uv60 R) := do
  let (rc, xyz) ← clrCtXyz ct obs
  if rc ≠ 0 then return (rc, o)
  else return (0, clrXyzUv60 t xyz o)

/-- conv.c:743-827 `zsl_clr_conv_cct_xyy`; `t`, `t0`, `t1` are the uninitialised locals. -/
def clrCctXyy (t : Xyy R) (t0 t1 : Uv60 R) (c : Cct R) (obs : Obs) : Out (Int × Xyy R) := do
  let z : Xyy R := ⟨lit 0, lit 0, lit 0, .deg2, .A, false, false, false⟩
  let bad : Xyy R := { z with xInv := true, yInv := true, YInv := true }
  let (rc, xyz) ← clrCtXyz c.cct obs
  if rc ≠ 0 then return (rc, bad)
  else do
    let uv0 := clrXyzUv60 t xyz t0
    let (rc, xyz) ← clrCtXyz (c.cct + lit 0.01) obs
    if rc ≠ 0 then return (rc, bad)
    else
      let uv1 := clrXyzUv60 t xyz t1
      let du := uv0.u - uv1.u
      let dv := uv0.v - uv1.v
      let fu := uv0.u - c.duv * (dv / CReal.sqrt (du * du + dv * dv))
      let fv := uv0.v + c.duv * (du / CReal.sqrt (du * du + dv * dv))
      return (0, { z with
        x := lit 9 * fu / (lit 6 * fu - lit 16 * fv * lit 1.5 + lit 12)
        y := lit 2 * fv * lit 1.5 / (lit 3 * fu - lit 8 * fv * lit 1.5 + lit 6)
        Y := lit 1
        obs := obs })

/-- conv.c:829-853 `zsl_clr_conv_cct_xyz`. -/
def clrCctXyz (t : Xyy R) (t0 t1 : Uv60 R) (c : Cct R) (obs : Obs) (o : Xyz R) : Out (Int × Xyz R) := do
  let (rc, xyy) ← clrCctXyy t t0 t1 c obs
  if rc ≠ 0 then return (rc, { o with xInv := true, yInv := true, zInv := true })
  else return (0, clrXyyXyz xyy o)

/-- conv.c:855-893 `zsl_clr_conv_uv60_cct_mccamy`. -/
def clrMccamy (c : Uv60 R) (o : Cct R) : Out (Int × Cct R) :=
  if c.uInv ∨ c.vInv then ok (-EINVAL, { o with cctInv := true, duvInv := true })
  else
    let xyy := clrUv60Xyy c
    let n := (xyy.x - lit 0.3320) / (lit 0.1858 - xyy.y)
    ok (0, { o with
      duv := lit 0
      duvInv := true
      cct := lit 449 * CReal.pow n (lit 3) + lit 3525 * CReal.pow n (lit 2) + lit 6823.3 * n + lit 5520.33 })

/-- The sextic polynomial with the given coefficients, as written out in conv.c (for example conv.c:924-930). -/
def sextic (k : List ℚ) (a : R) : Out R := do
  let k6 ← rd k 6
  let k5 ← rd k 5
  let k4 ← rd k 4
  let k3 ← rd k 3
  let k2 ← rd k 2
  let k1 ← rd k 1
  let k0 ← rd k 0
  return lit k6 * CReal.pow a (lit 6) + lit k5 * CReal.pow a (lit 5) + lit k4 * CReal.pow a (lit 4)
    + lit k3 * CReal.pow a (lit 3) + lit k2 * CReal.pow a (lit 2) + lit k1 * a + lit k0

/-- conv.c:895-1009 `zsl_clr_conv_uv60_cct_ohno2011`. -/
def clrOhno2011 (c : Uv60 R) (o : Cct R) : Out (Int × Cct R) :=
  if c.uInv ∨ c.vInv then ok (-EINVAL, { o with cctInv := true, duvInv := true })
  else do
    let lfp := CReal.sqrt ((c.u - lit 0.292) * (c.u - lit 0.292) + (c.v - lit 0.24) * (c.v - lit 0.24))
    let a1 := CReal.atan ((c.v - lit 0.24) / (c.u - lit 0.292))
    let a := if CReal.ge a1 (lit 0) then a1 else a1 + lit 3.14159265358979323846
    let r0 ← rd ohno2011Data 0
    let lbb ← sextic r0 a
    let duv := lfp - lbb
    let lp := lfp
    let (t1, dtc1) ← (if CReal.lt a (lit 2.54) then do
        let r1 ← rd ohno2011Data 1
        let p1 ← sextic r1 a
        let r3 ← rd ohno2011Data 3
        let p3 ← sextic r3 a
        return (lit 1 / p1, p3 * (lbb + lit 0.01) / lp * duv / lit 0.01)
      else do
        let r2 ← rd ohno2011Data 2
        let p2 ← sextic r2 a
        let r4 ← rd ohno2011Data 4
        let p4 ← sextic r4 a
        return (lit 1 / p2, p4 * (lbb + lit 0.01) / lp * duv / lit 0.01) : Out (R × R))
    let t2 := t1 - dtc1
    let l := CReal.log10 t2
    let dtc2 ← (if CReal.ge duv (lit 0) then do
        let r5 ← rd ohno2011Data 5
        sextic r5 l
      else do
        let r6 ← rd ohno2011Data 6
        let p6 ← sextic r6 l
        return p6 * CReal.pow (duv / lit 0.03) (lit 2) : Out R)
    return (0, ⟨t2 - dtc2, duv, false, false⟩)

/-- conv.c:1079-1083: the squared distance of a table row from the chromaticity. -/
def uvDist (row : ℚ × ℚ × ℚ) (c : Uv60 R) : R :=
  (lit row.2.1 - c.u) * (lit row.2.1 - c.u) + (lit row.2.2 - c.v) * (lit row.2.2 - c.v)

/-- conv.c:1069-1089: the search for the row nearest to the chromaticity; the best distance and its index. -/
def ohnoSearch (c : Uv60 R) : Out (R × Nat) :=
  forN ohno2014Table.length (fun i (best, idx) => do
    let row ← rd ohno2014Table i
    let d := uvDist row c
    if CReal.lt d best then return (d, i) else return (best, idx)) (lit 1, 0)

/-- conv.c:1044-1156 `zsl_clr_conv_uv60_cct_ohno2014`. -/
def clrOhno2014 (c : Uv60 R) (o : Cct R) : Out (Int × Cct R) :=
  if c.uInv ∨ c.vInv then ok (-EINVAL, { o with cctInv := true, duvInv := true })
  else do
    let o : Cct R := ⟨lit 0, lit 0, false, false⟩
    let (_, m) ← ohnoSearch c
    let row ← rd ohno2014Table m
    let row1 ← rd ohno2014Table 1
    let rowl ← rd ohno2014Table (ohno2014Table.length - 2)
    if CReal.lt (lit row.1 : R) (lit row1.1) || CReal.gt (lit row.1 : R) (lit rowl.1) then return (-EINVAL, o)
    else do
      let prev ← rdI ohno2014Table ((m : Int) - 1)
      let next ← rdI ohno2014Table ((m : Int) + 1)
      let dprev := uvDist prev c
      let dnext := uvDist next c
      let l := ((lit next.2.1 : R) - lit prev.2.1) * (lit next.2.1 - lit prev.2.1)
        + (lit next.2.2 - lit prev.2.2) * (lit next.2.2 - lit prev.2.2)
      let l := CReal.sqrt l
      let x := (dprev * dprev - dnext * dnext + l * l) / (lit 2 * l)
      let cct := lit prev.1 + (lit next.1 - lit prev.1) * (x / l)
      let lfp := CReal.sqrt ((c.u - lit 0.292) * (c.u - lit 0.292) + (c.v - lit 0.24) * (c.v - lit 0.24))
      let a := CReal.acos ((c.u - lit 0.292) / lfp)
      let lbb ← sextic ohno2014Data a
      return (0, { o with cct := cct, duv := lfp - lbb })

/-- include/zsl/colorimetry.h:214-253 `enum zsl_clr_uv_cct_method`; `other` stands for every value that is no enumerator. -/
inductive CctMethod
  | mccamy
  | ohno2011
  | ohno2014
  | other

/-- conv.c:1158-1173 `zsl_clr_conv_uv60_cct`. -/
def clrUv60Cct (method : CctMethod) (c : Uv60 R) (o : Cct R) : Out (Int × Cct R) :=
  match method with
  | .mccamy => clrMccamy c o
  | .ohno2011 => clrOhno2011 c o
  | .ohno2014 => clrOhno2014 c o
  | .other => clrOhno2014 c o

/-- conv.c:1255-1310: the correction of one channel; the value stored and the flag. The three channels are corrected independently of
each other. `cap` is the option CONFIG_ZSL_CLR_RGBF_BOUND_CAP. -/
def rgbfChannel (cap : Bool) (x : R) : R × Bool :=
  let (x, inv) := if CReal.lt x (lit 0) then (if cap then lit 0 else x, true) else (x, false)
  if CReal.ge x (lit 1) then (if cap then lit 1 else x, true) else (x, inv)

/-- conv.c:1229-1322 `zsl_clr_conv_xyz_rgbf`; `junk` is the content of the local matrices. -/
def clrXyzRgbf (cap : Bool) (junk : Nat → R) (c : Xyz R) (m : Mtx R) : Out (Int × Rgbf R) := do
  let (_, xm) ← mtxInit (Mtx.uninit junk 3 1) none
  let (_, rm) ← mtxInit (Mtx.uninit junk 3 1) none
  let z : Rgbf R := ⟨lit 0, lit 0, lit 0, lit 0, false, false, false, false⟩
  let d ← wr xm.data 0 c.x
  let d ← wr d 1 c.y
  let d ← wr d 2 c.z
  let (rc, rm) ← mtxMult m { xm with data := d } rm
  if rc ≠ 0 then return (rc, { z with rInv := true, gInv := true, bInv := true, aInv := true })
  else do
    let r ← rd rm.data 0
    let g ← rd rm.data 1
    let b ← rd rm.data 2
    return (0, ⟨(rgbfChannel cap r).1, (rgbfChannel cap g).1, (rgbfChannel cap b).1, lit 1,
      (rgbfChannel cap r).2, (rgbfChannel cap g).2, (rgbfChannel cap b).2, false⟩)

/-- `(uint8_t)x`: undefined behaviour if the truncated value does not fit. conv.c:1215-1217. -/
def realToU8 (x : R) : Out Nat :=
  match CReal.trunc x with
  | some z => if 0 ≤ z ∧ z ≤ 255 then ok z.toNat else ub
  | none => ub

/-- conv.c:1193-1213: the cap of one channel before the conversion to 8 bits. -/
def capChannel (x : R) : R :=
  let x := if CReal.gt x (lit 1) then lit 1 else x
  if CReal.lt x (lit 0) then lit 0 else x

/-- conv.c:1175-1227 `zsl_clr_conv_xyz_rgb8`; `o` is the previous content of the output. -/
def clrXyzRgb8 (cap : Bool) (junk : Nat → R) (c : Xyz R) (m : Mtx R) (o : Rgb8) : Out (Int × Rgb8) := do
  let (rc, f) ← clrXyzRgbf cap junk c m
  if rc ≠ 0 then return (rc, { o with rInv := true, gInv := true, bInv := true, aInv := true })
  else do
    let r := if cap then f.r else capChannel f.r
    let g := if cap then f.g else capChannel f.g
    let b := if cap then f.b else capChannel f.b
    let r ← realToU8 (r * lit 255)
    let g ← realToU8 (g * lit 255)
    let b ← realToU8 (b * lit 255)
    return (0, { o with rInv := f.rInv, gInv := f.gInv, bInv := f.bInv, r := r, g := g, b := b, a := 255 })

/-- conv.c:718-741 `zsl_clr_conv_ct_rgbf`. -/
def clrCtRgbf (cap : Bool) (junk : Nat → R) (ct : R) (obs : Obs) (m : Mtx R) (o : Rgbf R) : Out (Int × Rgbf R) := do
  let (rc, xyz) ← clrCtXyz ct obs
  if rc ≠ 0 then return (rc, { o with rInv := true, gInv := true, bInv := true, aInv := true })
  else clrXyzRgbf cap junk xyz m

/-- conv.c:693-716 `zsl_clr_conv_ct_rgb8`. -/
def clrCtRgb8 (cap : Bool) (junk : Nat → R) (ct : R) (obs : Obs) (m : Mtx R) (o : Rgb8) : Out (Int × Rgb8) := do
  let (rc, xyz) ← clrCtXyz ct obs
  if rc ≠ 0 then return (rc, { o with rInv := true, gInv := true, bInv := true, aInv := true })
  else clrXyzRgb8 cap junk xyz m o

/-- norm.c:10-32 `zsl_clr_norm_spd`. -/
def clrNormSpd (spd : Spd R) : Out (Int × Spd R) := do
  let max ← forN spd.size (fun i max => do
    let c ← rd spd.comps i
    if CReal.lt max c.2 then return c.2 else return max) (lit 0)
  if CReal.eq max (lit 0) then return (-EINVAL, spd)
  else do
    let d ← forN spd.size (fun i d => do
      let c ← rd d i
      wr d i (c.1, c.2 / max)) spd.comps
    return (0, { spd with comps := d })

/-- include/zsl/colorimetry.h:150-164 `enum zsl_clr_lef`; `other` stands for every value that is no enumerator. -/
inductive Lef
  | photopic
  | scotopic
  | other

/-- lumeff.c:193-205 `zsl_clr_lef_get`. -/
def clrLefGet : Lef → List (Nat × ℚ)
  | .scotopic => lefScotopic
  | .photopic => lefPhotopic
  | .other => lefPhotopic

/-- lumeff.c:207-248 `zsl_clr_lef_lerp`; the loop returns the exact match, or the pair of bounds where it breaks. The array has
`size = 81` elements. -/
def clrLefLerp (lef : Lef) (nm : Nat) : Out (Int × R) := do
  let data := clrLefGet lef
  let size := 81
  let first ← rd data 0
  let last ← rd data (size - 1)
  if first.1 > nm ∨ last.1 < nm then return (0, lit 0)
  else do
    let c ← forRet size (fun i (_ : Unit) => do
      let e ← rd data i
      if nm = e.1 then return Ctl.ret (Sum.inl e.2)
      else if e.1 > nm then return Ctl.ret (Sum.inr (i, if i = 0 then 0 else i - 1))
      else return Ctl.next ()) ()
    match c with
    | .ret (.inl v) => return (0, lit v)
    | .ret (.inr (upper, lower)) => do
      let hi ← rd data upper
      let lo ← rd data lower
      let coeff := ((lit hi.2 : R) - lit lo.2) / lit 5
      return (0, coeff * CReal.ofNat (nm - lo.1) + lit lo.2)
    | .next _ => do
      let hi ← rd data 0
      let lo ← rd data 0
      let coeff := ((lit hi.2 : R) - lit lo.2) / lit 5
      return (0, coeff * CReal.ofNat (nm - lo.1) + lit lo.2)

/-- illuminants.c:88-106 `zsl_clr_illum_get`: the row whose address is stored, `none` if the pointer is left alone. -/
def clrIllumGet (obs : Obs) (illum : Illum) : Out (Int × Option (Illum × Obs × ℚ × ℚ × ℚ)) := do
  let c ← forRet illumTable.length (fun i (_ : Unit) => do
    let e ← rd illumTable i
    if e.1 = illum ∧ e.2.1 = obs then return Ctl.ret e else return Ctl.next ()) ()
  match c with
  | .ret e => return (0, some e)
  | .next _ => return (-EINVAL, none)

/-- rgbccms.c:139-143 `zsl_clr_rgbccm_get`; `k` is the value of the enumerator. -/
def clrRgbccmGet (k : Nat) : Out (Mtx R) := do
  let (r, c, d) ← rd ccmTable k
  return ⟨r, c, d.map lit⟩

end Verif
