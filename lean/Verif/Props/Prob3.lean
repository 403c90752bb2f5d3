import Verif.Props.Prob2

/-!
# Probability: inverse error function, normal cdf and its inverse (C54, C85)
-/

namespace Verif

open Out MeasureTheory ProbabilityTheory

/-- C54: `zsl_prob_erf_inv` is finite and odd on `(-1, 1)`. -/
theorem erf_inv_odd {x : ℝ} (h1 : -1 < x) (h2 : x < 1) :
    ∃ y : ℝ, probErfInv (XR.fin x) = .fin y ∧ probErfInv (XR.fin (-x)) = .fin (-y) := by
  refine ⟨_, erf_inv_val h1 h2, ?_⟩
  rw [erf_inv_val (by linarith) (by linarith), neg_sq, neg_mul]

/-- C54: `zsl_prob_erf_inv` has the sign of its argument. -/
theorem erf_inv_sign {x : ℝ} (h1 : -1 < x) (h2 : x < 1) :
    ∃ y : ℝ, probErfInv (XR.fin x) = .fin y ∧ (0 < y ↔ 0 < x) ∧ (y = 0 ↔ x = 0) ∧ (y < 0 ↔ x < 0) := by
  have hp : 0 < 1 - x ^ 2 := by nlinarith
  have h := erfInvPoly_pos (Real.log_nonpos hp.le (by nlinarith [sq_nonneg x]))
  refine ⟨_, erf_inv_val h1 h2, mul_pos_iff_of_pos_right h, ?_, ?_⟩
  · rw [mul_eq_zero]; exact or_iff_left h.ne'
  · rw [mul_neg_iff]
    exact ⟨fun k => k.elim (fun k => absurd k.2 (not_lt.2 h.le)) fun k => k.1, fun k => Or.inr ⟨k, h⟩⟩

/-- C54: `zsl_prob_erf_inv` reports every argument outside `(-1, 1)`. -/
theorem erf_inv_rejects {x : ℝ} (h : x ≤ -1 ∨ 1 ≤ x) : probErfInv (XR.fin x) = .fin (-22) := by
  rw [probErfInv, if_pos (by rw [Bool.or_eq_true, XR.lit_eq, XR.lit_eq, XR.fin_le, XR.fin_ge]; push_cast; exact h), einvalR_eq]

theorem normal_cdf_inv_val (m s : ℝ) {p : ℝ} (h1 : 0 < p) (h2 : p < 1) :
    probNormalCdfInv (XR.fin m) (.fin s) (.fin p) =
      .fin (m + s * √2 * ((2 * p - 1) * erfInvPoly (Real.log (1 - (2 * p - 1) ^ 2)))) := by
  rw [probNormalCdfInv, if_neg (by
    rw [Bool.or_eq_true, XR.lit_eq, XR.lit_eq, XR.fin_le, XR.fin_ge]; push_cast; push Not; exact ⟨h1, h2⟩)]
  dsimp only
  rw [show lit 2 * XR.fin p - lit 1 = XR.fin (2 * p - 1) by rw [XR.lit_eq, XR.lit_eq, XR.fin_mul, XR.fin_sub]; push_cast; rfl,
    erf_inv_val (by linarith) (by linarith), XR.lit_eq, XR.fin_sqrt (by norm_num), XR.fin_mul, XR.fin_mul, XR.fin_add]
  norm_num

/-- C54: `zsl_prob_normal_cdf_inv` maps 1/2 to the mean. -/
theorem normal_cdf_inv_median (m s : ℝ) : probNormalCdfInv (XR.fin m) (.fin s) (.fin (1 / 2)) = .fin m := by
  rw [normal_cdf_inv_val m s (by norm_num) (by norm_num)]
  norm_num

/-- C54: `p` and `1 - p` go to points symmetric around the mean, `p > 1/2` to points above it when `s > 0`. -/
theorem normal_cdf_inv_symm (m : ℝ) {s p : ℝ} (h1 : 0 < p) (h2 : p < 1) :
    ∃ d : ℝ, probNormalCdfInv (XR.fin m) (.fin s) (.fin p) = .fin (m + d) ∧
      probNormalCdfInv (XR.fin m) (.fin s) (.fin (1 - p)) = .fin (m - d) ∧ (0 < s → (0 < d ↔ 1 / 2 < p)) := by
  refine ⟨_, normal_cdf_inv_val m s h1 h2, ?_, fun hs => ?_⟩
  · rw [normal_cdf_inv_val m s (by linarith) (by linarith), show 2 * (1 - p) - 1 = -(2 * p - 1) by ring, neg_sq]
    congr 1
    ring
  · have hp : 0 < 1 - (2 * p - 1) ^ 2 := by nlinarith
    have h := erfInvPoly_pos (Real.log_nonpos hp.le (by nlinarith [sq_nonneg (2 * p - 1)]))
    rw [mul_pos_iff_of_pos_left (by positivity), mul_pos_iff_of_pos_right h]
    constructor <;> intro <;> linarith

/-- C54: every `p` outside `(0, 1)` is reported. -/
theorem normal_cdf_inv_rejects (m s : XR) {p : ℝ} (h : p ≤ 0 ∨ 1 ≤ p) : probNormalCdfInv m s (XR.fin p) = .fin (-22) := by
  rw [probNormalCdfInv, if_pos (by rw [Bool.or_eq_true, XR.lit_eq, XR.lit_eq, XR.fin_le, XR.fin_ge]; push_cast; exact h), einvalR_eq]

example : ∃ d : ℝ, probNormalCdfInv (XR.fin 3) (.fin 2) (.fin 0.9) = .fin (3 + d) ∧ 0 < d := by
  obtain ⟨d, h, _, h2⟩ := normal_cdf_inv_symm 3 (s := 2) (p := 0.9) (by norm_num) (by norm_num)
  exact ⟨d, h, (h2 (by norm_num)).2 (by norm_num)⟩

/-! ## The cdf -/

theorem rerf_deriv (z : ℝ) : HasDerivAt XR.rerf (2 / √Real.pi * Real.exp (-z ^ 2)) z := by
  have hc : Continuous fun t : ℝ => Real.exp (-(t ^ 2)) := by fun_prop
  exact (intervalIntegral.integral_hasDerivAt_right (hc.intervalIntegrable _ _) (hc.stronglyMeasurableAtFilter _ _)
    hc.continuousAt).const_mul _

theorem rerf_neg (z : ℝ) : XR.rerf (-z) = -XR.rerf z := by
  unfold XR.rerf
  have h := intervalIntegral.integral_comp_neg (a := 0) (b := z) fun t : ℝ => Real.exp (-(t ^ 2))
  simp only [neg_sq, neg_zero] at h
  rw [h, intervalIntegral.integral_symm]
  ring

theorem rerf_atTop : Filter.Tendsto XR.rerf Filter.atTop (nhds 1) := by
  have hi : Integrable fun t : ℝ => Real.exp (-(t ^ 2)) := by
    have := integrable_exp_neg_mul_sq (b := 1) one_pos
    simpa using this
  have h := intervalIntegral_tendsto_integral_Ioi 0 hi.integrableOn Filter.tendsto_id
  have hv := integral_gaussian_Ioi 1
  simp only [neg_mul, one_mul, div_one] at hv
  rw [hv] at h
  have h2 := h.const_mul (2 / √Real.pi)
  rwa [show 2 / √Real.pi * (√Real.pi / 2) = 1 by field_simp] at h2

theorem rerf_atBot : Filter.Tendsto XR.rerf Filter.atBot (nhds (-1)) := by
  have h := (rerf_atTop.comp Filter.tendsto_neg_atBot_atTop).neg
  refine h.congr fun z => ?_
  show -XR.rerf (-z) = _
  rw [rerf_neg, neg_neg]

/-- The cdf that the code computes. -/
noncomputable def normCdf (m s x : ℝ) : ℝ := 1 / 2 * (1 + XR.rerf ((x - m) / (s * √2)))

theorem normal_cdf_val {s : ℝ} (hs : s ≠ 0) (m x : ℝ) : probNormalCdf (XR.fin m) (.fin s) (.fin x) = .fin (normCdf m s x) := by
  rw [probNormalCdf, XR.lit_eq, XR.lit_eq, XR.lit_eq, XR.fin_sqrt (by norm_num), XR.fin_sub, XR.fin_mul,
    XR.fin_div (mul_ne_zero hs (Real.sqrt_pos.2 (by norm_num)).ne'), XR.fin_erf, XR.fin_add, XR.fin_mul, normCdf]
  norm_num

theorem normCdf_deriv {s : ℝ} (hs : 0 < s) (m x : ℝ) :
    HasDerivAt (normCdf m s) (gaussianPDFReal m (s ^ 2).toNNReal x) x := by
  have h1 : HasDerivAt (fun x : ℝ => (x - m) / (s * √2)) (1 / (s * √2)) x := ((hasDerivAt_id x).sub_const m).div_const _
  have h2 := (((rerf_deriv _).comp x h1).const_add 1).const_mul (1 / 2)
  refine h2.congr_deriv ?_
  rw [gaussianPDFReal, Real.coe_toNNReal _ (sq_nonneg s)]
  have e1 : √(2 * Real.pi * s ^ 2) = √2 * √Real.pi * s := by
    rw [Real.sqrt_mul (by positivity), Real.sqrt_mul (by norm_num), Real.sqrt_sq hs.le]
  have e2 : -((x - m) / (s * √2)) ^ 2 = -(x - m) ^ 2 / (2 * s ^ 2) := by
    rw [div_pow, mul_pow, Real.sq_sqrt (by norm_num)]; ring
  rw [e1, e2]
  have hp := Real.sqrt_pos.2 Real.pi_pos
  have h2p : 0 < √(2 : ℝ) := Real.sqrt_pos.2 (by norm_num)
  field_simp

/-- C85: `zsl_prob_normal_cdf` is the distribution function of the normal distribution with mean `m` and variance `s²`. -/
theorem normal_cdf_correct {s : ℝ} (hs : 0 < s) (m x : ℝ) :
    probNormalCdf (XR.fin m) (.fin s) (.fin x) = .fin (∫ t in Set.Iic x, gaussianPDFReal m (s ^ 2).toNNReal t) := by
  have h2p : 0 < √(2 : ℝ) := Real.sqrt_pos.2 (by norm_num)
  rw [normal_cdf_val hs.ne']
  have ht : Filter.Tendsto (normCdf m s) Filter.atBot (nhds 0) := by
    have h1 : Filter.Tendsto (fun x : ℝ => (x - m) / (s * √2)) Filter.atBot Filter.atBot :=
      (Filter.tendsto_atBot_add_const_right _ (-m) Filter.tendsto_id).atBot_div_const (by positivity)
    have h2 := ((rerf_atBot.comp h1).const_add 1).const_mul (1 / 2)
    rwa [add_neg_cancel, mul_zero] at h2
  rw [integral_Iic_of_hasDerivAt_of_tendsto' (fun y _ => normCdf_deriv hs m y) (integrable_gaussianPDFReal _ _).integrableOn ht,
    sub_zero]

/-- C85: the cdf is strictly increasing and lies strictly between 0 and 1. -/
theorem normal_cdf_mono {s : ℝ} (hs : 0 < s) (m : ℝ) :
    ∃ F : ℝ → ℝ, (∀ x, probNormalCdf (XR.fin m) (.fin s) (.fin x) = .fin (F x)) ∧ StrictMono F ∧ ∀ x, 0 < F x ∧ F x < 1 := by
  have hv : (s ^ 2).toNNReal ≠ 0 := by
    rw [Ne, Real.toNNReal_eq_zero]; exact not_le.2 (by positivity)
  have hm : StrictMono (normCdf m s) := strictMono_of_hasDerivAt_pos (normCdf_deriv hs m) fun x => gaussianPDFReal_pos _ _ _ hv
  have hpos : ∀ x, 0 < normCdf m s x := fun x => by
    have h0 : ∀ y, 0 ≤ normCdf m s y := fun y => by
      have := normal_cdf_correct hs m y
      rw [normal_cdf_val hs.ne', XR.fin_inj] at this
      rw [this]
      exact integral_nonneg fun t => gaussianPDFReal_nonneg _ _ _
    exact (h0 (x - 1)).trans_lt (hm (by linarith))
  refine ⟨normCdf m s, normal_cdf_val hs.ne' m, hm, fun x => ⟨hpos x, ?_⟩⟩
  have h := hpos (2 * m - x)
  rw [normCdf] at h ⊢
  rw [show (2 * m - x - m) / (s * √2) = -((x - m) / (s * √2)) by ring, rerf_neg] at h
  linarith

/-- C85: the cdf is 1/2 at the mean and point symmetric around it. -/
theorem normal_cdf_symm {s : ℝ} (hs : 0 < s) (m d : ℝ) :
    ∃ y : ℝ, probNormalCdf (XR.fin m) (.fin s) (.fin (m + d)) = .fin y ∧
      probNormalCdf (XR.fin m) (.fin s) (.fin (m - d)) = .fin (1 - y) := by
  refine ⟨_, normal_cdf_val hs.ne' m (m + d), ?_⟩
  rw [normal_cdf_val hs.ne', normCdf, normCdf, show (m - d - m) / (s * √2) = -((m + d - m) / (s * √2)) by ring, rerf_neg]
  congr 1
  ring

example : probNormalCdf (XR.fin 1) (.fin 2) (.fin 1) = .fin (1 / 2) := by
  obtain ⟨y, h1, h2⟩ := normal_cdf_symm (s := 2) (by norm_num) 1 0
  rw [add_zero] at h1
  rw [sub_zero, h1, XR.fin_inj] at h2
  rw [h1]
  congr 1
  linarith

end Verif
