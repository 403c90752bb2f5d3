import Mathlib.Analysis.SpecialFunctions.Exp
import Verif.Lemmas.XRNan
import Verif.Props.Color2

/-!
# Colour temperature zero (C100) and the way from CCT and Duv to a colour (C101)
-/

namespace Verif

open Out XR Matrix

/-! ### Zero kelvin -/

theorem bbody_zero (k : ℕ) :
    (fin 374.183162616761619 : XR) / (fin ((gridNm k * 1e-3) * (gridNm k * 1e-3) * (gridNm k * 1e-3) * (gridNm k * 1e-3) *
      (gridNm k * 1e-3)) * fin 1e-12 * CReal.expm1 (fin 14.387863142323088 / (fin 0 * fin (gridNm k * 1e-3) * fin 1e-3))) = fin 0 := by
  have hk : (0 : ℝ) < gridNm k := by
    have : 0 < gridNm k := by unfold gridNm; omega
    exact_mod_cast this
  have hm : ∀ r : ℝ, 0 < r → (fin r : XR) * XR.pinf = XR.pinf := by
    intro r hr
    show XR.mul (fin r) XR.pinf = _
    simp [XR.mul, infOf, hr]
  rw [fin_mul, fin_mul, fin_mul, zero_mul, zero_mul, fin_div_zero, show infOf 14.387863142323088 = XR.pinf by simp [infOf]; norm_num,
    show CReal.expm1 XR.pinf = XR.pinf from rfl, hm _ (by positivity)]
  rfl

/-- C100. At zero kelvin `zsl_clr_conv_ct_xyz` reports success and flags nothing, but X and Z are not numbers. -/
theorem ct_xyz_zero (obs : Obs) : clrCtXyz (fin 0) obs = ok (0, ⟨XR.nan, fin 1, XR.nan, obs, .A, false, false, false⟩) := by
  unfold clrCtXyz
  have hloop := forN_eq (n := 95)
    (f := fun k (z : Xyz XR) => (do
      let nm := 360 + 5 * k
      let i := (nm - 360) / 5
      let d : XR := CReal.ofNat nm * lit 1e-3
      let d5 := d * d * d * d * d
      let bbody := (lit 374.183162616761619 : XR) / (d5 * lit 1e-12 * CReal.expm1 (lit 14.387863142323088 / (fin 0 * d * lit 1e-3)))
      let row ← rd (clrObsGet obs) i
      return { z with x := z.x + bbody * lit row.1, y := z.y + bbody * lit row.2.1, z := z.z + bbody * lit row.2.2 } : Out (Xyz XR)))
    (s := ⟨lit 0, lit 0, lit 0, .deg2, .A, false, false, false⟩)
    (fun _ => ⟨fin 0, fin 0, fin 0, .deg2, .A, false, false, false⟩)
    (by simp) (by
      intro k hk
      obtain ⟨row, hr, hc⟩ := cmf_rd obs (gridNm_range hk)
      have hr' : rd (clrObsGet obs) ((360 + 5 * k - 360) / 5) = ok row := hr
      have hb := bbody_zero k
      simp only [hr', ok_bind, pure_eq, XR.ofNat_eq, lit_eq, fin_mul]
      rw [show ((360 + 5 * k : ℕ) : ℝ) = (gridNm k : ℝ) from rfl]
      norm_num at hb ⊢
      rw [hb]
      simp)
  refine Eq.trans (congrArg (fun x => x >>= _) hloop) ?_
  simp only [ok_bind, pure_eq, fin_div_zero]
  simp [infOf]

theorem mult_col (a : Fin 9 → XR) (t : List XR) (x y z : XR) :
    mtxMult ⟨3, 3, [a 0, a 1, a 2, a 3, a 4, a 5, a 6, a 7, a 8] ++ t⟩ ⟨3, 1, [x, y, z]⟩ ⟨3, 1, [lit 0, lit 0, lit 0]⟩ =
      ok (0, ⟨3, 1, [lit 0 + a 0 * x + a 1 * y + a 2 * z, lit 0 + a 3 * x + a 4 * y + a 5 * z,
        lit 0 + a 6 * x + a 7 * y + a 8 * z]⟩) := rfl

/-- C100. At zero kelvin `zsl_clr_conv_ct_rgb8` converts a NaN to an unsigned integer, which is undefined behaviour, for every
3×3 matrix and with or without bound capping. -/
theorem ct_rgb8_zero_ub (cap : Bool) (junk : ℕ → XR) (obs : Obs) (a : Fin 9 → XR) (t : List XR) (o : Rgb8) :
    clrCtRgb8 cap junk (fin 0) obs ⟨3, 3, [a 0, a 1, a 2, a 3, a 4, a 5, a 6, a 7, a 8] ++ t⟩ o = ub := by
  have hn : ∀ p q r s : XR, p + q * XR.nan + r + s * XR.nan = XR.nan := fun p q r s => by simp [XR.mul_nan, XR.add_nan]
  have hchan : rgbfChannel cap XR.nan = (XR.nan, false) := by
    unfold rgbfChannel
    rfl
  unfold clrCtRgb8
  rw [ct_xyz_zero, ok_bind]
  refine Eq.trans (if_neg (by simp)) ?_
  unfold clrXyzRgb8 clrXyzRgbf
  simp only [rgb_init, ok_bind]
  simp only [show ∀ w, wr [lit 0, lit 0, lit 0] 0 w = ok [w, (lit 0 : XR), lit 0] from fun _ => rfl, ok_bind,
    show ∀ v w, wr [v, lit 0, lit 0] 1 w = ok [v, w, (lit 0 : XR)] from fun _ _ => rfl,
    show ∀ u v w, wr [u, v, lit 0] 2 w = ok [u, v, (w : XR)] from fun _ _ _ => rfl]
  rw [mult_col]
  simp only [ok_bind, hn]
  refine Eq.trans (congrArg (fun x => x >>= _) (if_neg (by simp))) ?_
  simp only [show ∀ a b d : XR, rd [a, b, d] 0 = ok a from fun _ _ _ => rfl, show ∀ a b d : XR, rd [a, b, d] 1 = ok b from fun _ _ _ => rfl,
    show ∀ a b d : XR, rd [a, b, d] 2 = ok d from fun _ _ _ => rfl, ok_bind, hchan, pure_eq]
  refine Eq.trans (if_neg (by simp)) ?_
  have hc : (if cap = true then XR.nan else capChannel XR.nan) = XR.nan := by
    cases cap <;> rfl
  simp only [hc]
  rfl

/-! ### From CCT and Duv to a colour (C101) -/

/-- C101. `zsl_clr_conv_cct_xyy`: the chromaticity is the black body's, moved by Duv at a right angle to the chord from the
temperature T to T + 0.01, to the left of the direction from T + 0.01 to T; the luminance is 1. -/
theorem cct_xyy_correct (t : Xyy XR) (t0 t1 : Uv60 XR) (c : Cct ℝ) (obs : Obs) (h0 : c.cct ≠ 0) (h1 : c.cct + 0.01 ≠ 0)
    (hne : planckUv obs c.cct ≠ planckUv obs (c.cct + 0.01)) :
    let p := planckUv obs c.cct
    let q := planckUv obs (c.cct + 0.01)
    let n := Real.sqrt ((p.1 - q.1) ^ 2 + (p.2 - q.2) ^ 2)
    let u := p.1 - c.duv * ((p.2 - q.2) / n)
    let v := p.2 + c.duv * ((p.1 - q.1) / n)
    2 * u - 8 * v + 4 ≠ 0 →
    clrCctXyy t t0 t1 c.emb obs = ok (0, Xyy.emb ⟨3 * u / (2 * u - 8 * v + 4), 2 * v / (2 * u - 8 * v + 4), 1, obs, .A,
      false, false, false⟩) := by
  intro p q n u v hD
  have hn2 : 0 < (p.1 - q.1) ^ 2 + (p.2 - q.2) ^ 2 := by
    have h3 : 0 ≤ (p.1 - q.1) ^ 2 + (p.2 - q.2) ^ 2 := by positivity
    refine lt_of_le_of_ne h3 fun e => hne ?_
    have e1 : (p.1 - q.1) ^ 2 = 0 := by nlinarith [sq_nonneg (p.1 - q.1), sq_nonneg (p.2 - q.2)]
    have e2 : (p.2 - q.2) ^ 2 = 0 := by nlinarith [sq_nonneg (p.1 - q.1), sq_nonneg (p.2 - q.2)]
    exact Prod.ext (sub_eq_zero.mp (pow_eq_zero_iff (by norm_num) |>.mp e1))
      (sub_eq_zero.mp (pow_eq_zero_iff (by norm_num) |>.mp e2))
  have hn : n ≠ 0 := (Real.sqrt_pos.mpr hn2).ne'
  unfold clrCctXyy
  simp only [Cct.emb]
  rw [ct_xyz_correct _ h0 obs, ok_bind]
  refine Eq.trans (if_neg (by simp)) ?_
  have e1 : (fin c.cct + lit 0.01 : XR) = fin (c.cct + 0.01) := by
    rw [lit_eq, fin_add]
    norm_num
  rw [e1, ct_xyz_correct _ h1 obs, ok_bind]
  refine Eq.trans (if_neg (by simp)) ?_
  simp only [planckUv_eq h0, planckUv_eq h1, fin_sub, fin_mul, fin_add, pure_eq]
  have e2 : (p.1 - q.1) * (p.1 - q.1) + (p.2 - q.2) * (p.2 - q.2) = (p.1 - q.1) ^ 2 + (p.2 - q.2) ^ 2 := by ring
  have e3 : CReal.sqrt (fin ((p.1 - q.1) * (p.1 - q.1) + (p.2 - q.2) * (p.2 - q.2))) = fin n := by
    rw [fin_sqrt (by rw [e2]; exact hn2.le), e2]
  simp only [show planckUv obs c.cct = p from rfl, show planckUv obs (c.cct + 0.01) = q from rfl, e3, fin_div hn, fin_mul, fin_sub, fin_add,
    lit_eq]
  have ex : ((6 : ℚ) : ℝ) * u - ((16 : ℚ) : ℝ) * v * ((1.5 : ℚ) : ℝ) + ((12 : ℚ) : ℝ) = 3 * (2 * u - 8 * v + 4) := by
    norm_num
    ring
  have ey : ((3 : ℚ) : ℝ) * u - ((8 : ℚ) : ℝ) * v * ((1.5 : ℚ) : ℝ) + ((6 : ℚ) : ℝ) = 3 / 2 * (2 * u - 8 * v + 4) := by
    norm_num
    ring
  show ok ((0 : Int), Xyy.mk (fin (((9 : ℚ) : ℝ) * u) / fin (((6 : ℚ) : ℝ) * u - ((16 : ℚ) : ℝ) * v * ((1.5 : ℚ) : ℝ) + ((12 : ℚ) : ℝ)))
    (fin (((2 : ℚ) : ℝ) * v * ((1.5 : ℚ) : ℝ)) / fin (((3 : ℚ) : ℝ) * u - ((8 : ℚ) : ℝ) * v * ((1.5 : ℚ) : ℝ) + ((6 : ℚ) : ℝ))) (fin ((1 : ℚ) : ℝ)) obs Illum.A false false false) = _
  have hx : ((9 : ℚ) : ℝ) * u / (3 * (2 * u - 8 * v + 4)) = 3 * u / (2 * u - 8 * v + 4) := by
    rw [div_eq_div_iff (mul_ne_zero (by norm_num) hD) hD]
    norm_num
    ring
  have hy : ((2 : ℚ) : ℝ) * v * ((1.5 : ℚ) : ℝ) / (3 / 2 * (2 * u - 8 * v + 4)) = 2 * v / (2 * u - 8 * v + 4) := by
    rw [div_eq_div_iff (mul_ne_zero (by norm_num) hD) hD]
    norm_num
    ring
  rw [ex, ey, fin_div (mul_ne_zero (by norm_num) hD), fin_div (mul_ne_zero (by norm_num) hD), hx, hy, Rat.cast_one, Xyy.emb]

/-- C101. The offset has the length |Duv| and is perpendicular to the chord. -/
theorem cct_offset (p q : ℝ × ℝ) (d : ℝ) (h : p ≠ q) :
    let n := Real.sqrt ((p.1 - q.1) ^ 2 + (p.2 - q.2) ^ 2)
    let u := p.1 - d * ((p.2 - q.2) / n)
    let v := p.2 + d * ((p.1 - q.1) / n)
    (u - p.1) ^ 2 + (v - p.2) ^ 2 = d ^ 2 ∧ (u - p.1) * (p.1 - q.1) + (v - p.2) * (p.2 - q.2) = 0 := by
  intro n u v
  have h3 : 0 ≤ (p.1 - q.1) ^ 2 + (p.2 - q.2) ^ 2 := by positivity
  have hn2 : 0 < (p.1 - q.1) ^ 2 + (p.2 - q.2) ^ 2 := by
    refine lt_of_le_of_ne h3 fun e => h ?_
    have e1 : (p.1 - q.1) ^ 2 = 0 := by nlinarith [sq_nonneg (p.1 - q.1), sq_nonneg (p.2 - q.2)]
    have e2 : (p.2 - q.2) ^ 2 = 0 := by nlinarith [sq_nonneg (p.1 - q.1), sq_nonneg (p.2 - q.2)]
    exact Prod.ext (sub_eq_zero.mp (pow_eq_zero_iff (by norm_num) |>.mp e1))
      (sub_eq_zero.mp (pow_eq_zero_iff (by norm_num) |>.mp e2))
  have hn : n ≠ 0 := (Real.sqrt_pos.mpr hn2).ne'
  have hs : n ^ 2 = (p.1 - q.1) ^ 2 + (p.2 - q.2) ^ 2 := Real.sq_sqrt h3
  constructor
  · have : (u - p.1) ^ 2 + (v - p.2) ^ 2 = d ^ 2 * ((p.1 - q.1) ^ 2 + (p.2 - q.2) ^ 2) / n ^ 2 := by
      simp only [u, v]
      field_simp
      ring
    rw [this, ← hs]
    field_simp
  · simp only [u, v]
    field_simp
    ring

/-- C101. `zsl_clr_conv_cct_xyz` is the composition with the conversion to XYZ. -/
theorem cct_xyz_comp (t : Xyy XR) (t0 t1 : Uv60 XR) (c : Cct XR) (obs : Obs) (o : Xyz XR) (r : Xyy XR)
    (h : clrCctXyy t t0 t1 c obs = ok (0, r)) : clrCctXyz t t0 t1 c obs o = ok (0, clrXyyXyz r o) := by
  unfold clrCctXyz
  rw [h, ok_bind]
  exact if_neg (by simp)

/-! ### The black body locus does not stand still -/

/-- The ratio of two exitances, the second at the longer wavelength, vanishes exponentially as the temperature falls. -/
theorem planck_ratio {T a b w x : ℝ} (hT : 0 < T) (hw : 0 < w) (hx : 0 < x) (ha : a = 1.4387863142323088e-2 / w)
    (hb : b = 1.4387863142323088e-2 / x) (hab : b ≤ a) :
    planck T w / planck T x ≤ (x / w) ^ 5 * Real.exp (-((a - b) / T)) := by
  have hpa : 0 < a := by rw [ha]; positivity
  have hpb : 0 < b := by rw [hb]; positivity
  have ea : (1.4387863142323088e-2 : ℝ) / (w * T) = a / T := by rw [ha]; field_simp
  have eb : (1.4387863142323088e-2 : ℝ) / (x * T) = b / T := by rw [hb]; field_simp
  have h1 : 0 < Real.exp (a / T) - 1 := by rw [sub_pos, Real.one_lt_exp_iff]; positivity
  have h2 : 0 < Real.exp (b / T) - 1 := by rw [sub_pos, Real.one_lt_exp_iff]; positivity
  have e : planck T w / planck T x = (x / w) ^ 5 * ((Real.exp (b / T) - 1) / (Real.exp (a / T) - 1)) := by
    unfold planck
    rw [ea, eb]
    field_simp
  rw [e]
  refine mul_le_mul_of_nonneg_left ?_ (by positivity)
  rw [div_le_iff₀ h1, mul_sub, mul_one, ← Real.exp_add]
  have e3 : -((a - b) / T) + a / T = b / T := by ring
  rw [e3]
  have : Real.exp (-((a - b) / T)) ≤ 1 := by
    rw [Real.exp_le_one_iff]
    have : 0 ≤ (a - b) / T := div_nonneg (by linarith) hT.le
    linarith
  linarith

theorem gridNm_pos (k : ℕ) : (0 : ℝ) < gridNm k * 1e-9 := by
  have : 0 < gridNm k := by unfold gridNm; omega
  have : (0 : ℝ) < gridNm k := by exact_mod_cast this
  positivity

theorem planck_continuousAt {T w : ℝ} (hT : 0 < T) (hw : 0 < w) : ContinuousAt (fun T => planck T w) T := by
  unfold planck
  have h1 : Real.exp (1.4387863142323088e-2 / (w * T)) - 1 ≠ 0 := by
    rw [sub_ne_zero, ne_eq, Real.exp_eq_one_iff]
    positivity
  have h2 : w * T ≠ 0 := by positivity
  refine ContinuousAt.div continuousAt_const ?_ (mul_ne_zero (by positivity) h1)
  refine continuousAt_const.mul (ContinuousAt.sub (Real.continuous_exp.continuousAt.comp ?_) continuousAt_const)
  exact ContinuousAt.div continuousAt_const (continuousAt_const.mul continuousAt_id) h2

theorem glow_continuousAt (obs : Obs) (f : ℝ × ℝ × ℝ → ℝ) {T : ℝ} (hT : 0 < T) : ContinuousAt (glow obs f) T := by
  unfold glow
  exact tendsto_finsetSum _ fun k _ => (planck_continuousAt hT (gridNm_pos k)).mul continuousAt_const

/-- The last entry of the z function is zero. -/
theorem cmf_last (obs : Obs) : (cmf obs (gridNm 94)).2.2 = 0 := by
  have h : ∀ obs, ((clrObsGet obs).getD ((gridNm 94 - 360) / 5) (0, 0, 0)).2.2 = 0 := by
    intro obs
    cases obs <;> decide +kernel
  unfold cmf
  simp only
  exact_mod_cast h obs

open Filter Topology in
/-- As the temperature falls the light turns red: Z vanishes against Y. -/
theorem glow_cold (obs : Obs) : Tendsto (fun T => glow obs (·.2.2) T / glow obs (·.2.1) T) (𝓝[>] 0) (𝓝 0) := by
  set y := (cmf obs (gridNm 94)).2.1 with hy
  have hy0 : 0 < y := (cmf_sign obs (gridNm_range (by omega))).2.1
  let a : ℕ → ℝ := fun k => 1.4387863142323088e-2 / (gridNm k * 1e-9)
  let B : ℕ → ℝ → ℝ := fun k T => (gridNm 94 * 1e-9 / (gridNm k * 1e-9)) ^ 5 * Real.exp (-((a k - a 94) / T)) *
    ((cmf obs (gridNm k)).2.2 / y)
  have hB : Tendsto (fun T => ∑ k ∈ Finset.range 94, B k T) (𝓝[>] 0) (𝓝 0) := by
    have : ∀ k ∈ Finset.range 94, Tendsto (B k) (𝓝[>] 0) (𝓝 0) := by
      intro k hk
      have hk : k < 94 := Finset.mem_range.mp hk
      have hlt : a 94 < a k := by
        refine div_lt_div_of_pos_left (by norm_num) (gridNm_pos k) ?_
        have : gridNm k < gridNm 94 := by unfold gridNm; omega
        have : (gridNm k : ℝ) < gridNm 94 := by exact_mod_cast this
        nlinarith
      have h1 : Tendsto (fun T : ℝ => (a k - a 94) / T) (𝓝[>] 0) atTop := by
        simp only [div_eq_mul_inv]
        exact Tendsto.const_mul_atTop (by linarith) tendsto_inv_nhdsGT_zero
      have h2 : Tendsto (fun T : ℝ => Real.exp (-((a k - a 94) / T))) (𝓝[>] 0) (𝓝 0) :=
        Real.tendsto_exp_atBot.comp (tendsto_neg_atTop_atBot.comp h1)
      have := (h2.const_mul ((gridNm 94 * 1e-9 / (gridNm k * 1e-9) : ℝ) ^ 5)).mul_const ((cmf obs (gridNm k)).2.2 / y)
      simpa [B] using this
    simpa using tendsto_finsetSum _ this
  refine tendsto_of_tendsto_of_tendsto_of_le_of_le' tendsto_const_nhds hB ?_ ?_
  · filter_upwards [self_mem_nhdsWithin] with T hT
    exact (ct_xyz_pos T hT obs).2.le
  · filter_upwards [self_mem_nhdsWithin] with T hT
    have hT : 0 < T := hT
    have hp94 := (planck_sign (gridNm_pos 94)).1 hT
    have hle : planck T (gridNm 94 * 1e-9) * y ≤ glow obs (·.2.1) T := by
      unfold glow
      exact Finset.single_le_sum (f := fun k => planck T (gridNm k * 1e-9) * (cmf obs (gridNm k)).2.1)
        (fun k hk => mul_nonneg ((planck_sign (gridNm_pos k)).1 hT).le
          (cmf_sign obs (gridNm_range (Finset.mem_range.mp hk))).2.1.le) (Finset.mem_range.mpr (by omega))
    have hz : 0 ≤ glow obs (·.2.2) T := ((glowZ_sign obs T).1 hT).le
    calc glow obs (·.2.2) T / glow obs (·.2.1) T ≤ glow obs (·.2.2) T / (planck T (gridNm 94 * 1e-9) * y) :=
          div_le_div_of_nonneg_left hz (mul_pos hp94 hy0) hle
      _ = ∑ k ∈ Finset.range 94, planck T (gridNm k * 1e-9) / planck T (gridNm 94 * 1e-9) * ((cmf obs (gridNm k)).2.2 / y) := by
          unfold glow
          simp only
          rw [Finset.sum_range_succ, cmf_last, mul_zero, add_zero, Finset.sum_div]
          refine Finset.sum_congr rfl fun k _ => ?_
          rw [mul_div_mul_comm]
      _ ≤ ∑ k ∈ Finset.range 94, B k T := by
          refine Finset.sum_le_sum fun k hk => ?_
          have hk : k < 94 := Finset.mem_range.mp hk
          refine mul_le_mul_of_nonneg_right (planck_ratio hT (gridNm_pos k) (gridNm_pos 94) rfl rfl ?_)
            (div_nonneg (cmf_sign obs (gridNm_range (by omega))).2.2 hy0.le)
          refine div_le_div_of_nonneg_left (by norm_num) (gridNm_pos k) ?_
          have : gridNm k ≤ gridNm 94 := by unfold gridNm; omega
          have : (gridNm k : ℝ) ≤ gridNm 94 := by exact_mod_cast this
          nlinarith

theorem planckUv_zy {obs : Obs} {S T : ℝ} (hS : 0 < S) (hT : 0 < T) (h : planckUv obs S = planckUv obs T) :
    glow obs (·.2.2) S / glow obs (·.2.1) S = glow obs (·.2.2) T / glow obs (·.2.1) T := by
  have key : ∀ T, 0 < T → glow obs (·.2.2) T / glow obs (·.2.1) T =
      (4 - (planckUv obs T).1 - 10 * (planckUv obs T).2) / (2 * (planckUv obs T).2) := by
    intro T hT
    have hx := (glowX_sign obs T).1 hT
    have hy := (glowY_sign obs T).1 hT
    have hz := (glowZ_sign obs T).1 hT
    unfold planckUv
    simp only
    generalize glow obs (·.1) T = x at *
    generalize glow obs (·.2.1) T = y at *
    generalize glow obs (·.2.2) T = z at *
    have : x + 15 * y + 3 * z ≠ 0 := by positivity
    set E := x + 15 * y + 3 * z with hE
    field_simp
    rw [hE]
    ring
  rw [key S hS, key T hT, h]

open Filter Topology in
/-- C101. There are temperatures that meet the hypotheses of `cct_xyy_correct`: the black body locus moves. -/
theorem planckUv_moves (obs : Obs) : ∃ T : ℝ, 0 < T ∧ planckUv obs T ≠ planckUv obs (T + 0.01) := by
  by_contra hcon
  push Not at hcon
  have h1 : ∀ T : ℝ, 0 < T → glow obs (·.2.2) T / glow obs (·.2.1) T = glow obs (·.2.2) (T + 0.01) / glow obs (·.2.1) (T + 0.01) :=
    fun T hT => planckUv_zy hT (by linarith) (hcon T hT)
  have hc : ContinuousAt (fun T => glow obs (·.2.2) T / glow obs (·.2.1) T) 0.01 :=
    ContinuousAt.div (glow_continuousAt obs _ (by norm_num)) (glow_continuousAt obs _ (by norm_num))
      ((glowY_sign obs _).1 (by norm_num)).ne'
  have h2 : Tendsto (fun T : ℝ => T + 0.01) (𝓝[>] 0) (𝓝 0.01) := by
    have : Tendsto (fun T : ℝ => T + 0.01) (𝓝 0) (𝓝 (0 + 0.01)) := (continuous_id.add continuous_const).tendsto 0
    rw [zero_add] at this
    exact this.mono_left nhdsWithin_le_nhds
  have h3 := hc.tendsto.comp h2
  have h4 : Tendsto (fun T => glow obs (·.2.2) T / glow obs (·.2.1) T) (𝓝[>] 0)
      (𝓝 (glow obs (·.2.2) 0.01 / glow obs (·.2.1) 0.01)) := by
    refine h3.congr' ?_
    filter_upwards [self_mem_nhdsWithin] with T hT
    exact (h1 T hT).symm
  have := tendsto_nhds_unique (glow_cold obs) h4
  exact absurd this (ct_xyz_pos 0.01 (by norm_num) obs).2.ne

/-- The remaining hypothesis holds on the locus itself (Duv = 0). -/
example (obs : Obs) (T : ℝ) (hT : 0 < T) : 2 * (planckUv obs T).1 - 8 * (planckUv obs T).2 + 4 ≠ 0 := by
  have hx := (glowX_sign obs T).1 hT
  have hy := (glowY_sign obs T).1 hT
  have hz := (glowZ_sign obs T).1 hT
  unfold planckUv
  simp only
  generalize glow obs (·.1) T = x at *
  generalize glow obs (·.2.1) T = y at *
  generalize glow obs (·.2.2) T = z at *
  have hE : x + 15 * y + 3 * z ≠ 0 := by positivity
  have : 2 * (4 * x / (x + 15 * y + 3 * z)) - 8 * (6 * y / (x + 15 * y + 3 * z)) + 4 = 12 * (x + y + z) / (x + 15 * y + 3 * z) := by
    field_simp
    ring
  rw [this]
  positivity

end Verif
