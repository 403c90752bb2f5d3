import Mathlib.Tactic.FieldSimp
import Mathlib.Tactic.Linarith
import Mathlib.Tactic.LinearCombination
import Verif.Props.Matrices2
import Verif.Spec.Color

/-!
# Conversions between colour spaces (C68) and to RGB (C69)
-/

namespace Verif

open Out XR Matrix

/-- C68. `zsl_clr_conv_xyz_xyy`: the chromaticity is the share of X and of Y in the sum, the luminance is Y; observer and illuminant
travel along and the flags of the output are left alone. -/
theorem xyz_xyy_correct (c : Xyz ℝ) (o : Xyy XR) (h : c.x + c.y + c.z ≠ 0) :
    clrXyzXyy c.emb o = { o with
      x := fin (c.x / (c.x + c.y + c.z)), y := fin (c.y / (c.x + c.y + c.z)), Y := fin c.y, obs := c.obs, illum := c.illum } := by
  simp only [clrXyzXyy, Xyz.emb, fin_add, fin_div h]

/-- C68. `zsl_clr_conv_xyy_xyz`. -/
theorem xyy_xyz_correct (c : Xyy ℝ) (o : Xyz XR) (h : c.y ≠ 0) :
    clrXyyXyz c.emb o = { o with
      x := fin (c.x * c.Y / c.y), y := fin c.Y, z := fin ((1 - c.x - c.y) * c.Y / c.y), obs := c.obs, illum := c.illum } := by
  simp only [clrXyyXyz, Xyy.emb, fin_mul, fin_sub, fin_div h, lit_eq, Rat.cast_one]

/-- C68. `zsl_clr_conv_xyy_uv60`. -/
theorem xyy_uv60_correct (c : Xyy ℝ) (o : Uv60 XR) (h : -2 * c.x + 12 * c.y + 3 ≠ 0) :
    clrXyyUv60 c.emb o = { o with
      u := fin (4 * c.x / (-2 * c.x + 12 * c.y + 3)), v := fin (6 * c.y / (-2 * c.x + 12 * c.y + 3)),
      obs := c.obs, illum := c.illum } := by
  have e : 2 * c.x * -1 + 12 * c.y + 3 = -2 * c.x + 12 * c.y + 3 := by ring
  simp only [clrXyyUv60, Xyy.emb, lit_eq, fin_mul, fin_add, Rat.cast_ofNat, Rat.cast_neg, Rat.cast_one]
  rw [e, fin_div h, fin_div h]

/-- C68. `zsl_clr_conv_uv60_xyy`: the luminance is set to 1 and the flags are cleared. -/
theorem uv60_xyy_correct (c : Uv60 ℝ) (h : 2 * c.u - 8 * c.v + 4 ≠ 0) :
    clrUv60Xyy c.emb = Xyy.emb ⟨3 * c.u / (2 * c.u - 8 * c.v + 4), 2 * c.v / (2 * c.u - 8 * c.v + 4), 1, c.obs, c.illum,
      false, false, false⟩ := by
  simp only [clrUv60Xyy, Uv60.emb, Xyy.emb, lit_eq, fin_mul, fin_add, fin_sub, Rat.cast_ofNat, Rat.cast_one, fin_div h]

/-- C68. `zsl_clr_conv_uv60_uv76`: only v is stretched, by 3/2. -/
theorem uv60_uv76_correct (c : Uv60 ℝ) :
    clrUv60Uv76 c.emb = Uv76.emb ⟨c.u, 3 / 2 * c.v, c.obs, c.illum, c.uInv, c.vInv⟩ := by
  simp only [clrUv60Uv76, Uv60.emb, Uv76.emb, lit_eq, fin_mul]
  congr 2
  norm_num
  ring

/-- C68. Every chromaticity survives the way to the 1976 coordinates and back, flags included. -/
theorem uv60_uv76_uv60 (c : Uv60 ℝ) : clrUv76Uv60 (clrUv60Uv76 c.emb) = c.emb := by
  simp only [clrUv76Uv60, clrUv60Uv76, Uv60.emb, lit_eq, fin_mul]
  rw [fin_div (by norm_num)]
  congr 2
  norm_num

/-- C68. Every chromaticity survives the way from the 1976 coordinates and back, flags included. -/
theorem uv76_uv60_uv76 (c : Uv76 ℝ) : clrUv60Uv76 (clrUv76Uv60 c.emb) = c.emb := by
  simp only [clrUv76Uv60, clrUv60Uv76, Uv76.emb, lit_eq]
  rw [fin_div (by norm_num), fin_mul]
  congr 2
  norm_num

/-- C68. XYZ to xyY and back is the identity off the singular planes, whatever the intermediate structure held. -/
theorem xyz_xyy_xyz (c : Xyz ℝ) (t : Xyy XR) (o : Xyz XR) (h : c.x + c.y + c.z ≠ 0) (hy : c.y ≠ 0) :
    clrXyyXyz (clrXyzXyy c.emb t) o = { c.emb with xInv := o.xInv, yInv := o.yInv, zInv := o.zInv } := by
  rw [xyz_xyy_correct c t h]
  have hd : c.y / (c.x + c.y + c.z) ≠ 0 := div_ne_zero hy h
  simp only [clrXyyXyz, Xyz.emb, fin_mul, fin_sub, fin_div hd, lit_eq, Rat.cast_one]
  congr 2
  · field_simp
  · field_simp
    ring

/-- C68. xyY to XYZ and back is the identity off the singular planes. -/
theorem xyy_xyz_xyy (c : Xyy ℝ) (t : Xyz XR) (o : Xyy XR) (hy : c.y ≠ 0) (hY : c.Y ≠ 0) :
    clrXyzXyy (clrXyyXyz c.emb t) o = { c.emb with xInv := o.xInv, yInv := o.yInv, YInv := o.YInv } := by
  rw [xyy_xyz_correct c t hy]
  have e : c.x * c.Y / c.y + c.Y + (1 - c.x - c.y) * c.Y / c.y = c.Y / c.y := by
    field_simp
    ring
  simp only [clrXyzXyy, Xyy.emb, fin_add]
  rw [e, fin_div (div_ne_zero hY hy), fin_div (div_ne_zero hY hy)]
  congr 2
  · field_simp
  · field_simp

/-- C68. (u, v) to xyY and back is the identity off the singular line. -/
theorem uv60_xyy_uv60 (c : Uv60 ℝ) (o : Uv60 XR) (h : 2 * c.u - 8 * c.v + 4 ≠ 0) :
    clrXyyUv60 (clrUv60Xyy c.emb) o = { c.emb with uInv := o.uInv, vInv := o.vInv } := by
  rw [uv60_xyy_correct c h]
  have e : -2 * (3 * c.u / (2 * c.u - 8 * c.v + 4)) + 12 * (2 * c.v / (2 * c.u - 8 * c.v + 4)) + 3 =
      12 / (2 * c.u - 8 * c.v + 4) := by
    field_simp
    ring
  rw [xyy_uv60_correct _ _ (by rw [e]; exact div_ne_zero (by norm_num) h)]
  simp only [e, Uv60.emb]
  generalize 2 * c.u - 8 * c.v + 4 = D at h
  congr 2
  · field_simp
    ring
  · field_simp
    ring

/-- C68. xyY to (u, v) and back keeps the chromaticity; the luminance is lost and becomes 1. -/
theorem xyy_uv60_xyy (c : Xyy ℝ) (o : Uv60 XR) (h : -2 * c.x + 12 * c.y + 3 ≠ 0) :
    clrUv60Xyy (clrXyyUv60 c.emb o) = { c.emb with Y := fin 1, xInv := false, yInv := false, YInv := false } := by
  rw [xyy_uv60_correct c o h]
  set E := -2 * c.x + 12 * c.y + 3 with hE
  have e : 2 * (4 * c.x / E) - 8 * (6 * c.y / E) + 4 = 12 / E := by
    field_simp
    rw [hE]
    ring
  have := uv60_xyy_correct ⟨4 * c.x / E, 6 * c.y / E, c.obs, c.illum, o.uInv, o.vInv⟩
    (by simp only; rw [e]; exact div_ne_zero (by norm_num) h)
  refine this.trans ?_
  simp only [e, Xyy.emb]
  congr 2
  · field_simp
    ring
  · field_simp
    ring

/-- C68. `zsl_clr_conv_xyz_uv60` is the composition: u = 4X/(X+15Y+3Z), v = 6Y/(X+15Y+3Z). -/
theorem xyz_uv60_correct (c : Xyz ℝ) (t : Xyy XR) (o : Uv60 XR) (h : c.x + c.y + c.z ≠ 0) (h' : c.x + 15 * c.y + 3 * c.z ≠ 0) :
    clrXyzUv60 t c.emb o = { o with
      u := fin (4 * c.x / (c.x + 15 * c.y + 3 * c.z)), v := fin (6 * c.y / (c.x + 15 * c.y + 3 * c.z)),
      obs := c.obs, illum := c.illum } := by
  rw [clrXyzUv60, xyz_xyy_correct c t h]
  have e : -2 * (c.x / (c.x + c.y + c.z)) + 12 * (c.y / (c.x + c.y + c.z)) + 3 =
      (c.x + 15 * c.y + 3 * c.z) / (c.x + c.y + c.z) := by
    field_simp
    ring
  have := xyy_uv60_correct ⟨c.x / (c.x + c.y + c.z), c.y / (c.x + c.y + c.z), c.y, c.obs, c.illum, t.xInv, t.yInv, t.YInv⟩ o
    (by simp only; rw [e]; exact div_ne_zero h' h)
  refine this.trans ?_
  simp only [e]
  congr 2
  · field_simp
  · field_simp

/-- C68. `zsl_clr_conv_uv60_xyz` is the composition, with the luminance set to 1. -/
theorem uv60_xyz_correct (c : Uv60 ℝ) (o : Xyz XR) (h : 2 * c.u - 8 * c.v + 4 ≠ 0) (hv : c.v ≠ 0) :
    clrUv60Xyz c.emb o = { o with
      x := fin (3 * c.u / (2 * c.v)), y := fin 1, z := fin ((4 - c.u - 10 * c.v) / (2 * c.v)), obs := c.obs, illum := c.illum } := by
  rw [clrUv60Xyz, uv60_xyy_correct c h,
    xyy_xyz_correct _ o (by simp only; exact div_ne_zero (mul_ne_zero (by norm_num) hv) h)]
  set D := 2 * c.u - 8 * c.v + 4 with hD
  congr 2
  · simp only
    field_simp
  · simp only
    field_simp
    rw [hD]
    ring

/-- C68. The way XYZ, (u, v), XYZ returns the colour scaled to luminance 1. -/
theorem xyz_uv60_xyz (c : Xyz ℝ) (t : Xyy XR) (o : Uv60 XR) (o' : Xyz XR) (h : c.x + c.y + c.z ≠ 0)
    (h' : c.x + 15 * c.y + 3 * c.z ≠ 0) (hy : c.y ≠ 0) :
    clrUv60Xyz (clrXyzUv60 t c.emb o) o' = { o' with
      x := fin (c.x / c.y), y := fin 1, z := fin (c.z / c.y), obs := c.obs, illum := c.illum } := by
  rw [xyz_uv60_correct c t o h h']
  set E := c.x + 15 * c.y + 3 * c.z with hE
  have e : 2 * (4 * c.x / E) - 8 * (6 * c.y / E) + 4 = 12 * (c.x + c.y + c.z) / E := by
    field_simp
    rw [hE]
    ring
  have := uv60_xyz_correct ⟨4 * c.x / E, 6 * c.y / E, c.obs, c.illum, o.uInv, o.vInv⟩ o'
    (by simp only; rw [e]; exact div_ne_zero (mul_ne_zero (by norm_num) h) h')
    (by simp only; exact div_ne_zero (mul_ne_zero (by norm_num) hy) h')
  refine this.trans ?_
  congr 2
  · simp only
    field_simp
    ring
  · simp only
    field_simp
    rw [hE]
    ring

/-- C68. The chromaticity does not depend on the intensity. -/
theorem xyz_xyy_scale (c : Xyz ℝ) (o : Xyy XR) (k : ℝ) (hk : k ≠ 0) (h : c.x + c.y + c.z ≠ 0) :
    clrXyzXyy (Xyz.emb { c with x := k * c.x, y := k * c.y, z := k * c.z }) o =
      { clrXyzXyy c.emb o with Y := fin (k * c.y) } := by
  have e : k * c.x + k * c.y + k * c.z = k * (c.x + c.y + c.z) := by ring
  rw [xyz_xyy_correct c o h, xyz_xyy_correct _ o (by simp only; rw [e]; exact mul_ne_zero hk h)]
  simp only [e]
  congr 2
  · field_simp
  · field_simp

/-- C68. Black has no chromaticity: the conversion succeeds with coordinates that are not numbers and sets no flag. -/
theorem xyz_xyy_black (obs : Obs) (ill : Illum) (o : Xyy XR) :
    clrXyzXyy (Xyz.emb ⟨0, 0, 0, obs, ill, false, false, false⟩) o =
      { o with x := XR.nan, y := XR.nan, Y := fin 0, obs := obs, illum := ill } := by
  simp only [clrXyzXyy, Xyz.emb, fin_add, add_zero, fin_div_zero]
  simp [infOf]

/-- The white point D65 meets the hypotheses of the round trips. -/
example : ((0.95047 : ℝ) + 1 + 1.08883 ≠ 0) ∧ ((1 : ℝ) ≠ 0) ∧ ((0.95047 : ℝ) + 15 * 1 + 3 * 1.08883 ≠ 0) := by norm_num

/-- The chromaticity (0.2, 0.3) meets the hypothesis. -/
example : 2 * (0.2 : ℝ) - 8 * 0.3 + 4 ≠ 0 := by norm_num

/-! ### RGB -/

/-- The local matrices are cleared. -/
theorem rgb_init (junk : ℕ → XR) :
    mtxInit (Mtx.uninit junk 3 1) none = ok (0, (⟨3, 1, [lit 0, lit 0, lit 0]⟩ : Mtx XR)) := rfl

theorem col_eq (x y z : ℝ) : (⟨3, 1, [fin x, fin y, fin z]⟩ : Mtx XR) = mat (Matrix.of ![![x], ![y], ![z]]) [] := rfl

/-- The part of `x` in [0, 1]. -/
noncomputable def clip (x : ℝ) : ℝ := max 0 (min 1 x)

/-- Out of gamut. -/
def OutOfGamut (x : ℝ) : Prop := x < 0 ∨ 1 ≤ x

open scoped Classical in
theorem rgbfChannel_fin (cap : Bool) (x : ℝ) :
    rgbfChannel cap (fin x) = (fin (if cap then clip x else x), decide (OutOfGamut x)) := by
  unfold rgbfChannel OutOfGamut clip
  by_cases h0 : x < 0
  · have h1 : x < 1 := by linarith
    cases cap
    · simp [h0, not_le.mpr h1]
    · simp [h0, min_eq_right h1.le, max_eq_left h0.le]
  · push Not at h0
    by_cases h1 : 1 ≤ x
    · cases cap
      · simp [not_lt.mpr h0, h1]
      · simp [not_lt.mpr h0, h1]
    · push Not at h1
      cases cap
      · simp [not_lt.mpr h0, not_le.mpr h1]
      · simp [not_lt.mpr h0, not_le.mpr h1, min_eq_right h1.le, max_eq_right h0]

open scoped Classical in
/-- C69. `zsl_clr_conv_xyz_rgbf` with a 3×3 matrix: each channel is the matrix product, clipped to [0, 1] when bound capping is
configured, and is flagged exactly if the product is out of gamut. Alpha is 1 and not flagged. -/
theorem rgbf_correct (cap : Bool) (junk : ℕ → XR) (c : Xyz ℝ) (A : Matrix (Fin 3) (Fin 3) ℝ) (t : List XR) :
    clrXyzRgbf cap junk c.emb (mat A t) =
      let p := A *ᵥ ![c.x, c.y, c.z]
      let chan : ℝ → XR := fun x => fin (if cap then clip x else x)
      ok (0, ⟨chan (p 0), chan (p 1), chan (p 2), fin 1, decide (OutOfGamut (p 0)), decide (OutOfGamut (p 1)),
        decide (OutOfGamut (p 2)), false⟩) := by
  have key := mtx_mult_correct A (Matrix.of ![![c.x], ![c.y], ![c.z]]) ((Matrix.of ![![0], ![0], ![0]]).map XR.fin) t [] []
  have e : (Matrix.of ![![c.x], ![c.y], ![c.z]] : Matrix (Fin 3) (Fin 1) ℝ) = fun i _ => ![c.x, c.y, c.z] i := by
    ext i j
    fin_cases i <;> fin_cases j <;> rfl
  have hp : A * (Matrix.of ![![c.x], ![c.y], ![c.z]]) =
      Matrix.of ![![(A *ᵥ ![c.x, c.y, c.z]) 0], ![(A *ᵥ ![c.x, c.y, c.z]) 1], ![(A *ᵥ ![c.x, c.y, c.z]) 2]] := by
    rw [e]
    ext i j
    fin_cases i <;> fin_cases j <;> rfl
  rw [hp] at key
  unfold clrXyzRgbf
  simp only [rgb_init, ok_bind, lit_eq, Rat.cast_zero, Rat.cast_one]
  have hw : (wr [fin 0, fin 0, fin 0] 0 c.emb.x >>= fun d => wr d 1 c.emb.y >>= fun d => wr d 2 c.emb.z) =
      ok [fin c.x, fin c.y, fin c.z] := rfl
  simp only [show wr [fin 0, fin 0, fin 0] 0 c.emb.x = ok [fin c.x, fin 0, fin 0] from rfl, ok_bind,
    show wr [fin c.x, fin 0, fin 0] 1 c.emb.y = ok [fin c.x, fin c.y, fin 0] from rfl,
    show wr [fin c.x, fin c.y, fin 0] 2 c.emb.z = ok [fin c.x, fin c.y, fin c.z] from rfl]
  rw [col_eq, show (⟨3, 1, [fin 0, fin 0, fin 0]⟩ : Mtx XR) = mtxOf ((Matrix.of ![![0], ![0], ![0]]).map XR.fin) [] from rfl, key,
    ← col_eq]
  simp only [ok_bind]
  refine Eq.trans (if_neg (by simp)) ?_
  simp only [show ∀ a b d : XR, rd [a, b, d] 0 = ok a from fun _ _ _ => rfl, show ∀ a b d : XR, rd [a, b, d] 1 = ok b from fun _ _ _ => rfl,
    show ∀ a b d : XR, rd [a, b, d] 2 = ok d from fun _ _ _ => rfl, ok_bind, rgbfChannel_fin, pure_eq]

/-- C69. With bound capping every channel is between 0 and 1, and is the matrix product if that is in gamut. -/
theorem clip_gamut (x : ℝ) : 0 ≤ clip x ∧ clip x ≤ 1 ∧ (¬OutOfGamut x → clip x = x) := by
  unfold clip OutOfGamut
  refine ⟨le_max_left _ _, max_le (by norm_num) (min_le_left _ _), fun h => ?_⟩
  push Not at h
  rw [min_eq_right h.2.le, max_eq_right h.1]

/-- C69. A matrix that is not 3×3 is rejected: every channel is zero and flagged. -/
theorem rgbf_rejects (cap : Bool) (junk : ℕ → XR) (c : Xyz XR) (m : Mtx XR) (h : m.rows ≠ 3 ∨ m.cols ≠ 3) :
    clrXyzRgbf cap junk c m = ok (-EINVAL, ⟨fin 0, fin 0, fin 0, fin 0, true, true, true, true⟩) := by
  unfold clrXyzRgbf
  simp only [rgb_init, ok_bind, lit_eq, Rat.cast_zero]
  simp only [show wr [fin 0, fin 0, fin 0] 0 c.x = ok [c.x, fin 0, fin 0] from rfl, ok_bind,
    show wr [c.x, fin 0, fin 0] 1 c.y = ok [c.x, c.y, fin 0] from rfl,
    show wr [c.x, c.y, fin 0] 2 c.z = ok [c.x, c.y, c.z] from rfl]
  have : mtxMult m (⟨3, 1, [c.x, c.y, c.z]⟩ : Mtx XR) ⟨3, 1, [fin 0, fin 0, fin 0]⟩ =
      ok (-EINVAL, ⟨3, 1, [fin 0, fin 0, fin 0]⟩) := by
    unfold mtxMult
    by_cases hc : m.cols = 3
    · refine Eq.trans (if_neg (by simp [hc])) (if_pos (Or.inl ?_))
      rcases h with h | h
      · exact fun e => h e.symm
      · exact absurd hc h
    · exact if_pos hc
  rw [this]
  rfl

theorem trunc_clip (x : ℝ) : realToU8 (fin (clip x * 255)) = ok ⌊255 * clip x⌋₊ := by
  obtain ⟨h0, h1, -⟩ := clip_gamut x
  have h : 0 ≤ clip x * 255 := by positivity
  have e : CReal.trunc (fin (clip x * 255)) = some ⌊clip x * 255⌋ := by
    show XR.trunc (fin _) = _
    simp [XR.trunc, h]
  unfold realToU8
  rw [e]
  have hb : ⌊clip x * 255⌋ ≤ 255 := by
    have : (⌊clip x * 255⌋ : ℝ) ≤ 255 := (Int.floor_le _).trans (by linarith)
    exact_mod_cast this
  simp only
  rw [if_pos ⟨Int.floor_nonneg.mpr h, hb⟩, mul_comm]
  rfl

theorem capChannel_fin (x : ℝ) : capChannel (fin x) = fin (clip x) := by
  unfold capChannel clip
  by_cases h1 : 1 < x
  · simp [h1, h1.le]
  · push Not at h1
    by_cases h0 : x < 0
    · simp [not_lt.mpr h1, h0, h0.le]
    · push Not at h0
      simp [not_lt.mpr h1, not_lt.mpr h0, h1, h0]

open scoped Classical in
/-- C69. `zsl_clr_conv_xyz_rgb8`, with or without bound capping: each channel is the integer part of 255 times the clipped matrix
product; there is no undefined conversion. Alpha is 255; its flag is left as it was. -/
theorem rgb8_correct (cap : Bool) (junk : ℕ → XR) (c : Xyz ℝ) (A : Matrix (Fin 3) (Fin 3) ℝ) (t : List XR) (o : Rgb8) :
    clrXyzRgb8 cap junk c.emb (mat A t) o =
      let p := A *ᵥ ![c.x, c.y, c.z]
      ok (0, ⟨⌊255 * clip (p 0)⌋₊, ⌊255 * clip (p 1)⌋₊, ⌊255 * clip (p 2)⌋₊, 255, decide (OutOfGamut (p 0)),
        decide (OutOfGamut (p 1)), decide (OutOfGamut (p 2)), o.aInv⟩) := by
  unfold clrXyzRgb8
  rw [rgbf_correct]
  simp only [ok_bind]
  refine Eq.trans (if_neg (by simp)) ?_
  cases cap
  · simp only [Bool.false_eq_true, if_false, capChannel_fin, lit_eq, fin_mul, Rat.cast_ofNat, trunc_clip, ok_bind, pure_eq]
  · simp only [if_true, lit_eq, fin_mul, Rat.cast_ofNat, trunc_clip, ok_bind, pure_eq]

/-- C69. The 8-bit channels are at most 255. -/
theorem rgb8_range (x : ℝ) : ⌊255 * clip x⌋₊ ≤ 255 := by
  obtain ⟨h0, h1, -⟩ := clip_gamut x
  have : (⌊255 * clip x⌋₊ : ℝ) ≤ 255 := (Nat.floor_le (by positivity)).trans (by linarith)
  exact_mod_cast this

/-- C69. The 8-bit conversion rejects matrices that are not 3×3, flags every channel and leaves the values alone. -/
theorem rgb8_rejects (cap : Bool) (junk : ℕ → XR) (c : Xyz XR) (m : Mtx XR) (o : Rgb8) (h : m.rows ≠ 3 ∨ m.cols ≠ 3) :
    clrXyzRgb8 cap junk c m o = ok (-EINVAL, ⟨o.r, o.g, o.b, o.a, true, true, true, true⟩) := by
  unfold clrXyzRgb8
  rw [rgbf_rejects cap junk c m h]
  rfl

/-- A colour with a product in gamut, below and above. -/
example : ¬OutOfGamut 0.5 ∧ OutOfGamut (-0.1) ∧ OutOfGamut 1 := by
  unfold OutOfGamut
  norm_num

end Verif
