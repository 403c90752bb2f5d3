import Verif.Lemmas.ErfBound

/-!
# Probability: how well the inverse error function and the normal quantile invert (C154)
-/

namespace Verif

open Out PB

/-- The number that `zsl_prob_erf_inv` returns inside `(-1, 1)`. -/
noncomputable def einv (x : ℝ) : ℝ := x * erfInvPoly (Real.log (1 - x ^ 2))

theorem einv_neg (x : ℝ) : einv (-x) = -einv x := by rw [einv, einv, neg_sq, neg_mul]

theorem einv_mid {x : ℝ} (h : |x| < 1) (hu : uOf x ≤ 49 / 8) : einv x = yOf midU x := by
  rw [einv, yOf, ← erfInvPoly_mid (uOf_nonneg h) hu, uOf, neg_neg]

theorem einv_tail {x : ℝ} (hu : 49 / 8 < uOf x) : einv x = yOf tailU x := by
  rw [einv, yOf, ← erfInvPoly_tail hu, uOf, neg_neg]

theorem uOf_mono {t x : ℝ} (h0 : 0 ≤ t) (h : t ≤ x) (h1 : x < 1) : uOf t ≤ uOf x := by
  have hx : |x| < 1 := by rw [abs_lt]; constructor <;> linarith
  have ht : |t| < 1 := by rw [abs_lt]; constructor <;> linarith
  rw [uOf_le_iff ht, exp_uOf hx]
  nlinarith

/-- The point with `u` as its `-log (1 - x²)`. -/
theorem seam_point {u : ℝ} (h : 0 < u) : ∃ x : ℝ, 0 < x ∧ x < 1 ∧ uOf x = u ∧ 1 - x ≤ Real.exp (-u) := by
  have h1 : Real.exp (-u) < 1 := by rw [Real.exp_lt_one_iff]; linarith
  have h0 := Real.exp_pos (-u)
  have hp : 0 < 1 - Real.exp (-u) := by linarith
  have hs := Real.sq_sqrt hp.le
  have hx0 := Real.sqrt_pos.2 hp
  have hx1 : √(1 - Real.exp (-u)) < 1 := by rw [Real.sqrt_lt' one_pos]; linarith
  refine ⟨_, hx0, hx1, ?_, ?_⟩
  · rw [uOf, hs, sub_sub_cancel, Real.log_exp, neg_neg]
  · nlinarith

/-- Between two points whose slopes are close to one, the error changes by little. -/
theorem err_change {c : List ℚ} {a b K : ℝ} (h0 : 0 ≤ a) (hab : a ≤ b) (hb : b < 1)
    (h : ∀ x, a ≤ x → x ≤ b → 0 < fQ c (uOf x) ∧ |2 / √Real.pi * Real.exp (fL c (uOf x)) - 1| ≤ K) :
    |(XR.rerf (yOf c b) - b) - (XR.rerf (yOf c a) - a)| ≤ K * (b - a) := by
  have hd : ∀ x ∈ Set.Icc a b, HasDerivWithinAt (fun x => XR.rerf (yOf c x) - x) (2 / √Real.pi * Real.exp (fL c (uOf x)) - 1) (Set.Icc a b) x := by
    intro x hx
    have hx1 : |x| < 1 := by rw [abs_lt]; constructor <;> linarith [hx.1, hx.2]
    exact ((erfy_deriv c hx1 (h x hx.1 hx.2).1).sub (hasDerivAt_id x)).hasDerivWithinAt
  have := Convex.norm_image_sub_le_of_norm_hasDerivWithin_le hd (fun x hx => (Real.norm_eq_abs _).trans_le (h x hx.1 hx.2).2) (convex_Icc a b)
    (Set.left_mem_Icc.2 hab) (Set.right_mem_Icc.2 hab)
  rwa [Real.norm_eq_abs, Real.norm_eq_abs, abs_of_nonneg (by linarith : 0 ≤ b - a)] at this

theorem err_mid {x : ℝ} (h0 : 0 ≤ x) (h1 : x < 1) (hu : uOf x ≤ 49 / 8) : |XR.rerf (yOf midU x) - x| ≤ 6.66e-5 * x := by
  have h := err_change (c := midU) (K := 6.66e-5) le_rfl h0 h1 fun t t0 tx =>
    mid_slope (by rw [abs_lt]; constructor <;> linarith) ((uOf_mono t0 tx h1).trans hu)
  rwa [show yOf midU 0 = 0 from zero_mul _, rerf_zero, sub_zero, sub_zero, sub_zero] at h

theorem two_div_sqrt_pi : 2 / √Real.pi ≤ 2 := by
  have h : 1 ≤ √Real.pi := by rw [Real.one_le_sqrt]; linarith [Real.pi_gt_three]
  rw [div_le_iff₀ (by linarith)]
  linarith

theorem err_seam {a : ℝ} (h0 : 0 < a) (h1 : a < 1) (hu : uOf a = 49 / 8) : |XR.rerf (yOf tailU a) - a| ≤ 6.7e-5 := by
  obtain ⟨a1, a2, b1, b2, -⟩ := seam_vals
  have h := err_mid h0.le h1 hu.le
  have l := rerf_lip (yOf tailU a) (yOf midU a)
  have d : |yOf tailU a - yOf midU a| ≤ 1.5e-7 := by
    rw [yOf, yOf, hu, ← mul_sub, abs_mul, abs_of_pos h0]
    have : |pev tailU (49 / 8) - pev midU (49 / 8)| ≤ 1.5e-7 := by
      rw [abs_le]; constructor <;> linarith
    nlinarith [abs_nonneg (pev tailU (49 / 8) - pev midU (49 / 8))]
  have l2 : |XR.rerf (yOf tailU a) - XR.rerf (yOf midU a)| ≤ 3e-7 := by
    refine l.trans ((mul_le_mul two_div_sqrt_pi d (abs_nonneg _) (by norm_num)).trans (by norm_num))
  rw [abs_le] at h l2 ⊢
  constructor <;> linarith

theorem err_tail {x : ℝ} (h0 : 0 ≤ x) (h1 : x < 1) (hu : 49 / 8 < uOf x) (hu2 : uOf x ≤ 129 / 8) : |XR.rerf (yOf tailU x) - x| ≤ 6.8e-5 := by
  obtain ⟨a, ha0, ha1, hau, had⟩ := seam_point (u := 49 / 8) (by norm_num)
  have hax : a ≤ x := by
    by_contra hc
    have := uOf_mono h0 (le_of_not_ge hc) ha1
    linarith
  have h := err_change (c := tailU) (K := 2.5e-4) ha0.le hax h1 fun t t0 tx =>
    tail_slope (by rw [← hau]; exact uOf_mono ha0.le t0 (by linarith)) ((uOf_mono (by linarith) tx h1).trans hu2)
  have hs := err_seam ha0 ha1 hau
  have he := exp_seam
  rw [abs_le] at h hs ⊢
  constructor <;> nlinarith

theorem yTail_mono {a x : ℝ} (h0 : 0 < a) (hax : a ≤ x) (h1 : x < 1) (hu : 49 / 8 ≤ uOf a) : yOf tailU a ≤ yOf tailU x := by
  have hux := uOf_mono h0.le hax h1
  have h2 := tail_strictMono.monotoneOn (Set.mem_Ici.2 hu) (Set.mem_Ici.2 (hu.trans hux)) hux
  have h3 := tail_ge hu
  rw [yOf, yOf]
  exact mul_le_mul hax h2 (by linarith) (by linarith)

theorem exp_far : Real.exp (-(129 / 8)) ≤ 1.2e-7 := by
  have h := Real.exp_one_gt_d9
  have h1 : (8.5e6 : ℝ) ≤ Real.exp (129 / 8) := by
    have e : Real.exp (129 / 8) ≥ Real.exp 16 := Real.exp_le_exp.2 (by norm_num)
    have e6 : Real.exp 16 = Real.exp 1 ^ 16 := by rw [← Real.exp_nat_mul]; norm_num
    have : (2.718 : ℝ) ^ 16 ≤ Real.exp 1 ^ 16 := pow_le_pow_left₀ (by norm_num) (by linarith) 16
    rw [← e6] at this
    norm_num at this ⊢
    linarith
  rw [Real.exp_neg, inv_le_comm₀ (Real.exp_pos _) (by norm_num)]
  refine le_trans ?_ h1
  norm_num

theorem err_pos {x : ℝ} (h0 : 0 ≤ x) (h1 : x < 1) : |XR.rerf (einv x) - x| ≤ 7e-5 * x := by
  have hx : |x| < 1 := by rw [abs_of_nonneg h0]; exact h1
  by_cases hu : uOf x ≤ 49 / 8
  · rw [einv_mid hx hu]
    refine (err_mid h0 h1 hu).trans ?_
    linarith
  rw [einv_tail (not_le.1 hu)]
  have hx9 : 0.99 ≤ x := by
    have h4 := exp_seam
    have h5 : Real.exp (-(uOf x)) < Real.exp (-(49 / 8)) := Real.exp_lt_exp.2 (by linarith [not_le.1 hu])
    rw [exp_uOf hx] at h5
    nlinarith
  by_cases hu2 : uOf x ≤ 129 / 8
  · exact (err_tail h0 h1 (not_le.1 hu) hu2).trans (by linarith)
  obtain ⟨b, hb0, hb1, hbu, hbd⟩ := seam_point (u := 129 / 8) (by norm_num)
  have hbx : b ≤ x := by
    by_contra hc
    have := uOf_mono h0 (le_of_not_ge hc) hb1
    linarith
  have h := err_tail hb0.le hb1 (by rw [hbu]; norm_num) hbu.le
  have hm := rerf_strictMono.monotone (yTail_mono hb0 hbx h1 (by rw [hbu]; norm_num))
  have hl := rerf_lt_one (yOf tailU x)
  have he := exp_far
  rw [abs_le] at h ⊢
  constructor <;> linarith

theorem err_all {x : ℝ} (h1 : -1 < x) (h2 : x < 1) : |XR.rerf (einv x) - x| ≤ 7e-5 * |x| := by
  rcases le_total 0 x with h | h
  · rw [abs_of_nonneg h]; exact err_pos h h2
  · have := err_pos (x := -x) (by linarith) (by linarith)
    rw [einv_neg, rerf_neg, ← neg_sub', abs_neg] at this
    rw [abs_of_nonpos h]
    exact this

/-- C154: for every `x` in `(-1, 1)` the error function of the result of `zsl_prob_erf_inv` is `x` up to a relative error of
0.00007. -/
theorem erf_inv_accurate {x : ℝ} (h1 : -1 < x) (h2 : x < 1) :
    ∃ y : ℝ, probErfInv (XR.fin x) = .fin y ∧ |2 / √Real.pi * (∫ t in (0 : ℝ)..y, Real.exp (-(t ^ 2))) - x| ≤ 0.00007 * |x| :=
  ⟨_, erf_inv_val h1 h2, (err_all h1 h2).trans (le_of_eq (by norm_num))⟩

/-- C154: `zsl_prob_normal_cdf` of the result of `zsl_prob_normal_cdf_inv` is within 0.000035 of the probability, whatever the mean and the
positive standard deviation. -/
theorem normal_quantile_accurate (m : ℝ) {s p : ℝ} (hs : 0 < s) (h1 : 0 < p) (h2 : p < 1) :
    ∃ q r : ℝ, probNormalCdfInv (XR.fin m) (.fin s) (.fin p) = .fin q ∧ probNormalCdf (XR.fin m) (.fin s) (.fin q) = .fin r ∧
      |r - p| ≤ 0.000035 := by
  refine ⟨_, _, normal_cdf_inv_val m s h1 h2, normal_cdf_val hs.ne' m _, ?_⟩
  have h := err_all (x := 2 * p - 1) (by linarith) (by linarith)
  have ha : |2 * p - 1| ≤ 1 := by rw [abs_le]; constructor <;> linarith
  have h2p : 0 < √(2 : ℝ) := Real.sqrt_pos.2 (by norm_num)
  rw [normCdf, show (m + s * √2 * ((2 * p - 1) * erfInvPoly (Real.log (1 - (2 * p - 1) ^ 2))) - m) / (s * √2) = einv (2 * p - 1) by
    rw [add_sub_cancel_left, mul_div_cancel_left₀ _ (by positivity), einv]]
  rw [abs_le] at h ⊢
  constructor <;> linarith

example : ∃ q r : ℝ, probNormalCdfInv (XR.fin 100) (.fin 15) (.fin 0.975) = .fin q ∧
    probNormalCdf (XR.fin 100) (.fin 15) (.fin q) = .fin r ∧ |r - 0.975| ≤ 0.000035 :=
  normal_quantile_accurate 100 (by norm_num) (by norm_num) (by norm_num)

/-! ## Order -/

theorem yMid_mono {x y : ℝ} (h1 : -1 < x) (hxy : x < y) (h2 : y < 1) (hx : uOf x ≤ 49 / 8) (hy : uOf y ≤ 49 / 8) :
    yOf midU x < yOf midU y := by
  have hx1 : |x| < 1 := by rw [abs_lt]; constructor <;> linarith
  have hy1 : |y| < 1 := by rw [abs_lt]; constructor <;> linarith
  have hin : ∀ t, x ≤ t → t ≤ y → |t| < 1 ∧ uOf t ≤ 49 / 8 := fun t t0 t1 => by
    have ht1 : |t| < 1 := by rw [abs_lt]; constructor <;> linarith
    refine ⟨ht1, ?_⟩
    rw [uOf_le_iff hx1] at hx
    rw [uOf_le_iff hy1] at hy
    rw [uOf_le_iff ht1]
    rcases le_total 0 t with h | h
    · nlinarith
    · nlinarith
  have hm : StrictMonoOn (yOf midU) (Set.Icc x y) := by
    refine strictMonoOn_of_deriv_pos (convex_Icc _ _)
      (fun t ht => (yOf_deriv midU (hin t ht.1 ht.2).1).continuousAt.continuousWithinAt) fun t ht => ?_
    rw [interior_Icc] at ht
    obtain ⟨a, b⟩ := hin t ht.1.le ht.2.le
    rw [(yOf_deriv midU a).deriv]
    exact div_pos (mid_slope a b).1 (uOf_pos_arg a)
  exact hm (Set.left_mem_Icc.2 hxy.le) (Set.right_mem_Icc.2 hxy.le) hxy

/-- C154: `zsl_prob_erf_inv` is strictly increasing where `1 - x²` is at least `exp (-6.125)` (about `|x| < 0.9989`) and, apart from that, where it is
smaller on the positive side. -/
theorem erf_inv_mono_partial {x y : ℝ} (h1 : -1 < x) (hxy : x < y) (h2 : y < 1)
    (h : (Real.exp (-6.125) ≤ 1 - x ^ 2 ∧ Real.exp (-6.125) ≤ 1 - y ^ 2) ∨ (0 < x ∧ 1 - x ^ 2 < Real.exp (-6.125))) :
    ∃ a b : ℝ, probErfInv (XR.fin x) = .fin a ∧ probErfInv (XR.fin y) = .fin b ∧ a < b := by
  have hx1 : |x| < 1 := by rw [abs_lt]; constructor <;> linarith
  have hy1 : |y| < 1 := by rw [abs_lt]; constructor <;> linarith
  refine ⟨_, _, erf_inv_val h1 (by linarith), erf_inv_val (by linarith) h2, ?_⟩
  show einv x < einv y
  rw [show (-6.125 : ℝ) = -(49 / 8) by norm_num, ← uOf_le_iff hx1, ← uOf_le_iff hy1, ← not_le (a := Real.exp (-(49 / 8))), ← uOf_le_iff hx1,
    not_le] at h
  rcases h with ⟨hx, hy⟩ | ⟨hx0, hx⟩
  · rw [einv_mid hx1 hx, einv_mid hy1 hy]
    exact yMid_mono h1 hxy h2 hx hy
  · have hu := uOf_mono hx0.le hxy.le h2
    rw [einv_tail hx, einv_tail (hx.trans_le hu), yOf, yOf]
    have h3 := tail_strictMono.monotoneOn (Set.mem_Ici.2 hx.le) (Set.mem_Ici.2 (hx.le.trans hu)) hu
    have h4 := tail_ge hx.le
    exact mul_lt_mul hxy h3 (by linarith) (by linarith)

theorem einv_nearly {x y : ℝ} (h0 : 0 ≤ x) (hxy : x < y) (h2 : y < 1) : einv x ≤ einv y + 1.5e-7 := by
  have hx1 : |x| < 1 := by rw [abs_lt]; constructor <;> linarith
  have hy1 : |y| < 1 := by rw [abs_lt]; constructor <;> linarith
  obtain ⟨a1, a2, b1, b2, -⟩ := seam_vals
  by_cases hx : uOf x ≤ 49 / 8
  · by_cases hy : uOf y ≤ 49 / 8
    · rw [einv_mid hx1 hx, einv_mid hy1 hy]
      linarith [yMid_mono (by linarith) hxy h2 hx hy]
    · rw [not_le] at hy
      obtain ⟨a, ha0, ha1, hau, -⟩ := seam_point (u := 49 / 8) (by norm_num)
      have hay : a ≤ y := by
        by_contra hc
        have := uOf_mono (by linarith) (le_of_not_ge hc) ha1
        linarith
      rw [einv_mid hx1 hx, einv_tail hy]
      have g1 := yTail_mono ha0 hay h2 hau.ge
      have g2 : yOf midU x ≤ yOf midU a := by
        rcases lt_trichotomy x a with h | h | h
        · exact (yMid_mono (by linarith) h ha1 hx hau.le).le
        · rw [h]
        · have e : uOf x = uOf a := le_antisymm (hx.trans hau.ge) (uOf_mono ha0.le h.le (by linarith))
          have e1 := exp_uOf hx1
          have e2 := exp_uOf (x := a) (by rw [abs_lt]; constructor <;> linarith)
          rw [e, e2] at e1
          nlinarith
      have g3 : yOf midU a - yOf tailU a ≤ 1.5e-7 := by
        rw [yOf, yOf, hau, ← mul_sub]
        nlinarith
      linarith
  · rw [not_le] at hx
    have hu := uOf_mono h0 hxy.le h2
    have hx0 : 0 < x := by
      rcases h0.lt_or_eq with h | h
      · exact h
      · rw [← h, uOf] at hx; norm_num at hx
    rw [einv_tail hx, einv_tail (hx.trans_le hu)]
    linarith [yTail_mono hx0 hxy.le h2 hx.le]

/-- C154: a larger argument never gives a result that is smaller by more than 0.00000015. -/
theorem erf_inv_nearly_mono {x y : ℝ} (h1 : -1 < x) (hxy : x < y) (h2 : y < 1) :
    ∃ a b : ℝ, probErfInv (XR.fin x) = .fin a ∧ probErfInv (XR.fin y) = .fin b ∧ a ≤ b + 0.00000015 := by
  refine ⟨_, _, erf_inv_val h1 (by linarith), erf_inv_val (by linarith) h2, ?_⟩
  show einv x ≤ einv y + 0.00000015
  rw [show (0.00000015 : ℝ) = 1.5e-7 by norm_num]
  rcases le_total 0 x with h | h
  · exact einv_nearly h hxy h2
  rcases le_total y 0 with k | k
  · have := einv_nearly (x := -y) (y := -x) (by linarith) (by linarith) (by linarith)
    rw [einv_neg, einv_neg] at this
    linarith
  have e1 : einv x ≤ 0 :=
    mul_nonpos_of_nonpos_of_nonneg h (erfInvPoly_pos (Real.log_nonpos (by nlinarith) (by nlinarith [sq_nonneg x]))).le
  have e2 : 0 ≤ einv y := mul_nonneg k (erfInvPoly_pos (Real.log_nonpos (by nlinarith) (by nlinarith [sq_nonneg y]))).le
  linarith

/-- C154: the result can drop: at the seam of the two polynomials a larger argument gives a smaller result. -/
theorem erf_inv_not_mono : ∃ x y a b : ℝ, 0 < x ∧ x < y ∧ y < 1 ∧ probErfInv (XR.fin x) = .fin a ∧ probErfInv (XR.fin y) = .fin b ∧ b < a := by
  obtain ⟨a1, a2, b1, b2, -⟩ := seam_vals
  obtain ⟨x, h0, h1, hu, -⟩ := seam_point (u := 49 / 8) (by norm_num)
  have hx1 : |x| < 1 := by rw [abs_lt]; constructor <;> linarith
  have hlt : yOf tailU x < yOf midU x := by
    rw [yOf, yOf, hu]
    exact mul_lt_mul_of_pos_left (by linarith) h0
  have hc := (yOf_deriv tailU hx1).continuousAt
  have ev := hc.eventually (gt_mem_nhds hlt)
  obtain ⟨ε, hε, hb⟩ := Metric.eventually_nhds_iff.1 ev
  have hm : 0 < min (ε / 2) ((1 - x) / 2) := lt_min (by linarith) (by linarith)
  have m1 := min_le_left (ε / 2) ((1 - x) / 2)
  have m2 := min_le_right (ε / 2) ((1 - x) / 2)
  obtain ⟨d, hd⟩ : ∃ d, min (ε / 2) ((1 - x) / 2) = d := ⟨_, rfl⟩
  rw [hd] at hm m1 m2
  have hy := hb (y := x + d) (by rw [Real.dist_eq, add_sub_cancel_left, abs_of_pos hm]; linarith)
  have hy1 : |x + d| < 1 := by rw [abs_lt]; constructor <;> linarith
  have huy : 49 / 8 < uOf (x + d) := by
    by_contra hn
    rw [not_lt, ← hu, uOf_le_iff hy1, exp_uOf hx1] at hn
    nlinarith
  refine ⟨x, x + d, einv x, einv (x + d), h0, by linarith, by linarith, erf_inv_val (by linarith) h1, erf_inv_val (by linarith) (by linarith), ?_⟩
  rw [einv_tail huy, einv_mid hx1 hu.le]
  exact hy

/-- C154: in the far tail of double precision the result is not close to the inverse: at `x = 1 - 10⁻¹⁵` it is above 18 although the error function
exceeds `x` already at 6. -/
theorem erf_inv_far_tail :
    ∃ y : ℝ, probErfInv (XR.fin (1 - 1e-15)) = .fin y ∧ 18 < y ∧ 1 - 1e-15 < 2 / √Real.pi * ∫ t in (0 : ℝ)..6, Real.exp (-(t ^ 2)) := by
  refine ⟨_, erf_inv_val (by norm_num) (by norm_num), ?_, ?_⟩
  · show 18 < einv (1 - 1e-15)
    have hx1 : |(1 - 1e-15 : ℝ)| < 1 := by rw [abs_lt]; constructor <;> norm_num
    have hu : 67 / 2 < uOf (1 - 1e-15) := by
      by_contra hn
      rw [not_lt, uOf_le_iff hx1] at hn
      have h := Real.exp_one_lt_d9
      have h67 : Real.exp (67 / 2) ^ 2 = Real.exp 1 ^ 67 := by
        rw [← Real.exp_nat_mul, ← Real.exp_nat_mul]; norm_num
      have h3 : Real.exp 1 ^ 67 ≤ (2.7182818286 : ℝ) ^ 67 := pow_le_pow_left₀ (Real.exp_pos 1).le h.le 67
      have h4 : Real.exp (67 / 2) < 5e14 := by
        have : Real.exp (67 / 2) ^ 2 < (5e14 : ℝ) ^ 2 := by
          rw [h67]; refine h3.trans_lt ?_; norm_num
        exact lt_of_pow_lt_pow_left₀ 2 (by norm_num) this
      have h5 : (2e-15 : ℝ) < Real.exp (-(67 / 2)) := by
        rw [Real.exp_neg, lt_inv_comm₀ (by norm_num) (Real.exp_pos _)]
        refine h4.trans_le ?_
        norm_num
      have h6 := h5.trans_le hn
      norm_num at h6
    rw [einv_tail (by linarith), yOf]
    have h1 := tail_strictMono (Set.mem_Ici.2 (by norm_num : (49 / 8 : ℝ) ≤ 67 / 2)) (Set.mem_Ici.2 (by linarith : (49 / 8 : ℝ) ≤ uOf (1 - 1e-15))) hu
    have h2 : 18.01 < pev tailU (67 / 2) := by
      simp only [tailU, pev]; norm_num
    norm_num at h1 h2 ⊢
    linarith
  · show _ < XR.rerf 6
    have h := rerf_tail (z := 6) (by norm_num)
    have hp : 1 ≤ √Real.pi := by rw [Real.one_le_sqrt]; linarith [Real.pi_gt_three]
    have h1 : Real.exp (-6 ^ 2) / √Real.pi ≤ Real.exp (-6 ^ 2) := div_le_self (Real.exp_pos _).le hp
    have h2 : Real.exp (-6 ^ 2) < 1e-15 := by
      have g := Real.exp_one_gt_d9
      have g1 : (2.718 : ℝ) ^ 36 ≤ Real.exp 1 ^ 36 := pow_le_pow_left₀ (by norm_num) (by linarith) 36
      rw [show Real.exp 1 ^ 36 = Real.exp 36 by rw [← Real.exp_nat_mul]; norm_num] at g1
      rw [show (-6 ^ 2 : ℝ) = -36 by norm_num, Real.exp_neg, inv_lt_comm₀ (Real.exp_pos _) (by norm_num)]
      refine lt_of_lt_of_le ?_ g1
      norm_num
    linarith

end Verif
