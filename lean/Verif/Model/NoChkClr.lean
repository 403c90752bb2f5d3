import Verif.Model.Colorimetry
import Verif.Model.NoChk

/-!
# Builds without bounds checks: colorimetry

The conversions to RGB have no guarded blocks of their own; they call the matrix functions, which are taken here from `Model/NoChk.lean`.
The correction of the channels and everything else is as in `Model/Colorimetry.lean`.
-/

namespace Verif.NoChk

open Out

variable {R : Type} [CReal R]

/-- conv.c:1229-1322 `zsl_clr_conv_xyz_rgbf`; `junk` is the content of the local matrices. Bounds checks off. -/
def clrXyzRgbf (cap : Bool) (junk : Nat → R) (c : Xyz R) (m : Mtx R) : Out (Int × Rgbf R) := do
  let (_, xm) ← mtxInit (Mtx.uninit junk 3 1) none
  let (_, rm) ← mtxInit (Mtx.uninit junk 3 1) none
  let z : Rgbf R := ⟨lit 0, lit 0, lit 0, lit 0, false, false, false, false⟩
  let d ← wr xm.data 0 c.x
  let d ← wr d 1 c.y
  let d ← wr d 2 c.z
  let (rc, rm) ← mtxMult m { xm with data := d } rm
  if rc ≠ 0 then return (rc, { z with rInv := true, gInv := true, bInv := true, aInv := true })
  else do
    let r ← rd rm.data 0
    let g ← rd rm.data 1
    let b ← rd rm.data 2
    return (0, ⟨(rgbfChannel cap r).1, (rgbfChannel cap g).1, (rgbfChannel cap b).1, lit 1,
      (rgbfChannel cap r).2, (rgbfChannel cap g).2, (rgbfChannel cap b).2, false⟩)

/-- conv.c:1175-1227 `zsl_clr_conv_xyz_rgb8`; `o` is the previous content of the output. Bounds checks off. -/
def clrXyzRgb8 (cap : Bool) (junk : Nat → R) (c : Xyz R) (m : Mtx R) (o : Rgb8) : Out (Int × Rgb8) := do
  let (rc, f) ← clrXyzRgbf cap junk c m
  if rc ≠ 0 then return (rc, { o with rInv := true, gInv := true, bInv := true, aInv := true })
  else do
    let r := if cap then f.r else capChannel f.r
    let g := if cap then f.g else capChannel f.g
    let b := if cap then f.b else capChannel f.b
    let r ← realToU8 (r * lit 255)
    let g ← realToU8 (g * lit 255)
    let b ← realToU8 (b * lit 255)
    return (0, { o with rInv := f.rInv, gInv := f.gInv, bInv := f.bInv, r := r, g := g, b := b, a := 255 })

/-- conv.c:718-741 `zsl_clr_conv_ct_rgbf`. Bounds checks off. -/
def clrCtRgbf (cap : Bool) (junk : Nat → R) (ct : R) (obs : Obs) (m : Mtx R) (o : Rgbf R) : Out (Int × Rgbf R) := do
  let (rc, xyz) ← clrCtXyz ct obs
  if rc ≠ 0 then return (rc, { o with rInv := true, gInv := true, bInv := true, aInv := true })
  else clrXyzRgbf cap junk xyz m

/-- conv.c:693-716 `zsl_clr_conv_ct_rgb8`. Bounds checks off. -/
def clrCtRgb8 (cap : Bool) (junk : Nat → R) (ct : R) (obs : Obs) (m : Mtx R) (o : Rgb8) : Out (Int × Rgb8) := do
  let (rc, xyz) ← clrCtXyz ct obs
  if rc ≠ 0 then return (rc, { o with rInv := true, gInv := true, bInv := true, aInv := true })
  else clrXyzRgb8 cap junk xyz m o

end Verif.NoChk
