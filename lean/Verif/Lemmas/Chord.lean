import Mathlib.Analysis.Convex.Deriv
import Mathlib.Analysis.SpecialFunctions.Trigonometric.DerivHyp
import Verif.Props.Color4

/-!
# The black body between two temperatures

Between two temperatures that are close to each other the weights of Planck's law are, up to a common factor and a small error, the linear interpolation (in
`1/T`) of the weights at the two ends.
-/

namespace Verif.LC

open Verif Finset

/-- A function whose second derivative is between 0 and `M` lies below its chord, by at most `M (b - a)² / 8`. -/
theorem chord_close {f f' f'' : ℝ → ℝ} {a b M : ℝ} (hab : a ≤ b) (h1 : ∀ x ∈ Set.Icc a b, HasDerivAt f (f' x) x)
    (h2 : ∀ x ∈ Set.Icc a b, HasDerivAt f' (f'' x) x) (h3 : ∀ x ∈ Set.Icc a b, 0 ≤ f'' x ∧ f'' x ≤ M) {x y t : ℝ}
    (hx : x ∈ Set.Icc a b) (hy : y ∈ Set.Icc a b) (ht0 : 0 ≤ t) (ht1 : t ≤ 1) :
    f ((1 - t) * x + t * y) ≤ (1 - t) * f x + t * f y ∧ (1 - t) * f x + t * f y - M * (b - a) ^ 2 / 8 ≤ f ((1 - t) * x + t * y) := by
  have sub : ∀ x ∈ interior (Set.Icc a b), x ∈ Set.Icc a b := fun x h => interior_subset h
  have c1 : ConvexOn ℝ (Set.Icc a b) f :=
    convexOn_of_hasDerivWithinAt2_nonneg (convex_Icc a b) (fun x h => (h1 x h).continuousAt.continuousWithinAt)
      (fun x h => (h1 x (sub x h)).hasDerivWithinAt) (fun x h => (h2 x (sub x h)).hasDerivWithinAt) fun x h => (h3 x (sub x h)).1
  have q1 : ∀ x : ℝ, HasDerivAt (fun x : ℝ => M / 2 * x ^ 2) (M * x) x := fun x => by
    refine (((hasDerivAt_id x).pow 2).const_mul (M / 2)).congr_deriv ?_
    simp only [id, Pi.pow_apply]
    push_cast
    ring
  have q2 : ∀ x : ℝ, HasDerivAt (fun x : ℝ => M * x) M x := fun x => by
    simpa using (hasDerivAt_id x).const_mul M
  have c2 : ConvexOn ℝ (Set.Icc a b) fun x => M / 2 * x ^ 2 - f x :=
    convexOn_of_hasDerivWithinAt2_nonneg (f' := fun x => M * x - f' x) (f'' := fun x => M - f'' x) (convex_Icc a b)
      (fun x h => ((q1 x).sub (h1 x h)).continuousAt.continuousWithinAt)
      (fun x h => ((q1 x).sub (h1 x (sub x h))).hasDerivWithinAt) (fun x h => ((q2 x).sub (h2 x (sub x h))).hasDerivWithinAt)
      fun x h => by linarith [(h3 x (sub x h)).2]
  have e1 := c1.2 hx hy (by linarith : 0 ≤ 1 - t) ht0 (by ring)
  have e2 := c2.2 hx hy (by linarith : 0 ≤ 1 - t) ht0 (by ring)
  simp only [smul_eq_mul] at e1 e2
  refine ⟨e1, ?_⟩
  have hM : 0 ≤ M := (h3 x hx).1.trans (h3 x hx).2
  have hd : (x - y) ^ 2 ≤ (b - a) ^ 2 := by
    rw [sq_le_sq, abs_of_nonneg (by linarith : 0 ≤ b - a), abs_le]
    constructor <;> linarith [hx.1, hx.2, hy.1, hy.2]
  have ht : t * (1 - t) ≤ 1 / 4 := by nlinarith [sq_nonneg (t - 1 / 2)]
  have ht' : 0 ≤ t * (1 - t) := mul_nonneg ht0 (by linarith)
  have hk : M / 2 * (t * (1 - t) * (x - y) ^ 2) ≤ M * (b - a) ^ 2 / 8 := by
    have : t * (1 - t) * (x - y) ^ 2 ≤ 1 / 4 * (b - a) ^ 2 := mul_le_mul ht hd (sq_nonneg _) (by norm_num)
    nlinarith
  nlinarith

theorem logBose_deriv {x : ℝ} (hx : 0 < x) :
    HasDerivAt (fun x => -Real.log (Real.exp x - 1)) (-(Real.exp x / (Real.exp x - 1))) x ∧
      HasDerivAt (fun x => -(Real.exp x / (Real.exp x - 1))) (Real.exp x / (Real.exp x - 1) ^ 2) x := by
  have h0 : 0 < Real.exp x - 1 := by linarith [Real.add_one_lt_exp hx.ne']
  have he : HasDerivAt (fun x : ℝ => Real.exp x - 1) (Real.exp x) x := (Real.hasDerivAt_exp x).sub_const 1
  refine ⟨(he.log h0.ne').neg, ?_⟩
  refine (((Real.hasDerivAt_exp x).div he h0.ne').neg).congr_deriv ?_
  field_simp
  ring

theorem bose_bound {x : ℝ} (hx : 0 < x) : 0 ≤ Real.exp x / (Real.exp x - 1) ^ 2 ∧ Real.exp x / (Real.exp x - 1) ^ 2 ≤ 1 / x ^ 2 := by
  have h0 : 0 < Real.exp x - 1 := by linarith [Real.add_one_lt_exp hx.ne']
  refine ⟨by positivity, ?_⟩
  rw [div_le_div_iff₀ (by positivity) (by positivity)]
  have hs : x / 2 ≤ Real.sinh (x / 2) := Real.self_le_sinh_iff.2 (by linarith)
  rw [Real.sinh_eq] at hs
  have e1 : Real.exp x = Real.exp (x / 2) ^ 2 := by rw [← Real.exp_nat_mul]; congr 1; push_cast; ring
  have e2 : Real.exp (-(x / 2)) * Real.exp (x / 2) = 1 := by rw [← Real.exp_add]; simp
  have hp := Real.exp_pos (x / 2)
  have k : x * Real.exp (x / 2) ≤ Real.exp x - 1 := by
    rw [e1]
    nlinarith
  have k2 := pow_le_pow_left₀ (by positivity) k 2
  rw [mul_pow, ← e1] at k2
  linarith

/-- The logarithm of `1 / (exp x - 1)` between two points. -/
theorem bose_chord {x y t : ℝ} (hy : 0 < y) (hxy : y ≤ x) (ht0 : 0 ≤ t) (ht1 : t ≤ 1) :
    -Real.log (Real.exp ((1 - t) * x + t * y) - 1) ≤ (1 - t) * (-Real.log (Real.exp x - 1)) + t * (-Real.log (Real.exp y - 1)) ∧
      (1 - t) * (-Real.log (Real.exp x - 1)) + t * (-Real.log (Real.exp y - 1)) - (x / y - 1) ^ 2 / 8 ≤
        -Real.log (Real.exp ((1 - t) * x + t * y) - 1) := by
  have h := chord_close (f := fun x => -Real.log (Real.exp x - 1)) (M := 1 / y ^ 2) hxy (fun z hz => (logBose_deriv (hy.trans_le hz.1)).1)
    (fun z hz => (logBose_deriv (hy.trans_le hz.1)).2) (fun z hz => ⟨(bose_bound (hy.trans_le hz.1)).1,
      (bose_bound (hy.trans_le hz.1)).2.trans (one_div_le_one_div_of_le (by positivity) (pow_le_pow_left₀ hy.le hz.1 2))⟩)
    (Set.right_mem_Icc.2 hxy) (Set.left_mem_Icc.2 hxy) ht0 ht1
  refine ⟨h.1, ?_⟩
  have e : 1 / y ^ 2 * (x - y) ^ 2 / 8 = (x / y - 1) ^ 2 / 8 := by field_simp
  rw [e] at h
  exact h.2

/-- The power `ρ ^ t` between `t = 0` and `t = 1`. -/
theorem pow_chord {ρ t : ℝ} (h1 : 0.8 ≤ ρ) (h2 : ρ ≤ 1.2) (ht0 : 0 ≤ t) (ht1 : t ≤ 1) :
    Real.exp (t * Real.log ρ) ≤ 1 + t * (ρ - 1) ∧ 1 + t * (ρ - 1) - (ρ - 1) ^ 2 / 5 ≤ Real.exp (t * Real.log ρ) ∧
      Real.exp (t * Real.log ρ) ≤ 1.2 := by
  have hρ : 0 < ρ := by norm_num at h1 ⊢; linarith
  obtain ⟨s, hs⟩ : ∃ s, Real.log ρ = s := ⟨_, rfl⟩
  have hes : Real.exp s = ρ := by rw [← hs, Real.exp_log hρ]
  have d1 : ∀ x : ℝ, HasDerivAt (fun x : ℝ => Real.exp (x * s)) (s * Real.exp (x * s)) x := fun x => by
    refine ((hasDerivAt_id x).mul_const s).exp.congr_deriv ?_
    simp only [id]; ring
  have d2 : ∀ x : ℝ, HasDerivAt (fun x : ℝ => s * Real.exp (x * s)) (s ^ 2 * Real.exp (x * s)) x := fun x => by
    refine ((d1 x).const_mul s).congr_deriv ?_
    ring
  have hm : ∀ x ∈ Set.Icc (0 : ℝ) 1, Real.exp (x * s) ≤ max 1 ρ := fun x hx => by
    rcases le_total 0 s with h | h
    · refine le_trans ?_ (le_max_right _ _)
      rw [← hes, Real.exp_le_exp]
      nlinarith [hx.2]
    · refine le_trans ?_ (le_max_left _ _)
      rw [Real.exp_le_one_iff]
      nlinarith [hx.1]
  have h := chord_close (a := 0) (b := 1) (M := s ^ 2 * max 1 ρ) zero_le_one (fun x _ => d1 x) (fun x _ => d2 x)
    (fun x hx => ⟨by positivity, mul_le_mul_of_nonneg_left (hm x hx) (sq_nonneg s)⟩) (x := 0) (y := 1) (by simp) (by simp) ht0 ht1
  simp only [mul_zero, zero_add, mul_one, zero_mul, Real.exp_zero, one_mul, hes] at h
  have hl1 : s ≤ ρ - 1 := by rw [← hs]; exact Real.log_le_sub_one_of_pos hρ
  have hl2 : (ρ - 1) / ρ ≤ s := by
    have := Real.one_sub_inv_le_log_of_pos hρ
    rw [hs] at this
    rwa [sub_div, div_self hρ.ne', one_div]
  have key : s ^ 2 * max 1 ρ ≤ (ρ - 1) ^ 2 * 1.6 := by
    rcases le_total 1 ρ with h | h
    · rw [max_eq_right h]
      have s0 : 0 ≤ s := le_trans (div_nonneg (by linarith) hρ.le) hl2
      have : s ^ 2 ≤ (ρ - 1) ^ 2 := pow_le_pow_left₀ s0 hl1 2
      have := mul_le_mul this h2 hρ.le (sq_nonneg _)
      nlinarith [sq_nonneg (ρ - 1)]
    · rw [max_eq_left h, mul_one]
      have s0 : s ≤ 0 := by linarith
      have : -s ≤ 1.25 * (1 - ρ) := by
        have : (1 - ρ) / ρ ≤ 1.25 * (1 - ρ) := by
          rw [div_le_iff₀ hρ]
          nlinarith
        have e : (ρ - 1) / ρ = -((1 - ρ) / ρ) := by ring
        rw [e] at hl2
        linarith
      have := pow_le_pow_left₀ (by linarith) this 2
      nlinarith [sq_nonneg (ρ - 1)]
  rw [hs]
  refine ⟨by linarith [h.1], by linarith [h.2], ?_⟩
  refine (hm t ⟨ht0, ht1⟩).trans (max_le (by norm_num) h2)

/-- A mixture whose weights are close to interpolated ones has a mean close to the interpolated one. -/
theorem mix_close {n : ℕ} {a ρ W N D : ℕ → ℝ} {t u0 u1 B σ η D0 : ℝ} (hD : ∀ k < n, 0 ≤ D k) (hD0 : 0 < D0)
    (hs0 : ∑ k ∈ range n, D k * a k = D0) (hs1 : ∑ k ∈ range n, D k * (a k * ρ k) = D0)
    (hu0 : ∑ k ∈ range n, N k * a k = u0 * D0) (hu1 : ∑ k ∈ range n, N k * (a k * ρ k) = u1 * D0)
    (hB : ∀ k < n, |N k - ((1 - t) * u0 + t * u1) * D k| ≤ B * D k) (hB0 : 0 ≤ B)
    (hW : ∀ k < n, W k ≤ a k * (1 + t * (ρ k - 1)) ∧ a k * (1 + t * (ρ k - 1)) - a k * ((ρ k - 1) ^ 2 / 5 + η) ≤ W k)
    (hσ : ∑ k ∈ range n, D k * (a k * (ρ k - 1) ^ 2) ≤ σ * D0) (hsmall : σ / 5 + η ≤ 0.01) :
    0 < ∑ k ∈ range n, D k * W k ∧
      |(∑ k ∈ range n, N k * W k) / (∑ k ∈ range n, D k * W k) - ((1 - t) * u0 + t * u1)| ≤ 1.02 * B * (σ / 5 + η) := by
  obtain ⟨u, hu⟩ : ∃ u, (1 - t) * u0 + t * u1 = u := ⟨_, rfl⟩
  rw [hu] at hB ⊢
  have hsum : ∀ F : ℕ → ℝ, ∑ k ∈ range n, F k * (a k * (1 + t * (ρ k - 1))) =
      (1 - t) * ∑ k ∈ range n, F k * a k + t * ∑ k ∈ range n, F k * (a k * ρ k) := fun F => by
    rw [mul_sum, mul_sum, ← sum_add_distrib]
    exact sum_congr rfl fun k _ => by ring
  have gap : ∑ k ∈ range n, D k * (a k * (1 + t * (ρ k - 1)) - W k) ≤ (σ / 5 + η) * D0 := by
    have : ∑ k ∈ range n, D k * (a k * (1 + t * (ρ k - 1)) - W k) ≤ ∑ k ∈ range n, (D k * (a k * (ρ k - 1) ^ 2) / 5 + η * (D k * a k)) := by
      refine sum_le_sum fun k hk => ?_
      have h := (hW k (mem_range.1 hk)).2
      have := mul_le_mul_of_nonneg_left (show a k * (1 + t * (ρ k - 1)) - W k ≤ a k * ((ρ k - 1) ^ 2 / 5 + η) by linarith) (hD k (mem_range.1 hk))
      refine this.trans (le_of_eq ?_)
      ring
    rw [sum_add_distrib, ← sum_div, ← mul_sum, hs0] at this
    refine this.trans ?_
    nlinarith
  have hDW : ∑ k ∈ range n, D k * W k = D0 - ∑ k ∈ range n, D k * (a k * (1 + t * (ρ k - 1)) - W k) := by
    have e : ∑ k ∈ range n, D k * (a k * (1 + t * (ρ k - 1))) = D0 := by rw [hsum, hs0, hs1]; ring
    conv_rhs => rw [← e, ← sum_sub_distrib]
    exact sum_congr rfl fun k _ => by ring
  have hpos : 0.99 * D0 ≤ ∑ k ∈ range n, D k * W k := by rw [hDW]; nlinarith
  have hpos' : 0 < ∑ k ∈ range n, D k * W k := by nlinarith
  refine ⟨hpos', ?_⟩
  have hdiff : (∑ k ∈ range n, N k * W k) - u * ∑ k ∈ range n, D k * W k =
      -∑ k ∈ range n, (N k - u * D k) * (a k * (1 + t * (ρ k - 1)) - W k) := by
    have e : ∑ k ∈ range n, (N k - u * D k) * (a k * (1 + t * (ρ k - 1))) = 0 := by
      rw [hsum]
      have f : ∀ G : ℕ → ℝ, ∑ k ∈ range n, (N k - u * D k) * G k = ∑ k ∈ range n, N k * G k - u * ∑ k ∈ range n, D k * G k := fun G => by
        rw [mul_sum, ← sum_sub_distrib]
        exact sum_congr rfl fun k _ => by ring
      rw [f, f, hs0, hs1, hu0, hu1, ← hu]
      ring
    have e2 : ∑ k ∈ range n, (N k - u * D k) * (a k * (1 + t * (ρ k - 1)) - W k) =
        ∑ k ∈ range n, (N k - u * D k) * (a k * (1 + t * (ρ k - 1))) - ∑ k ∈ range n, (N k - u * D k) * W k := by
      rw [← sum_sub_distrib]
      exact sum_congr rfl fun k _ => by ring
    rw [e2, e, zero_sub, neg_neg, mul_sum, ← sum_sub_distrib]
    exact sum_congr rfl fun k _ => by ring
  have hab : |∑ k ∈ range n, (N k - u * D k) * (a k * (1 + t * (ρ k - 1)) - W k)| ≤ B * ((σ / 5 + η) * D0) := by
    refine (abs_sum_le_sum_abs _ _).trans ?_
    refine le_trans ?_ (mul_le_mul_of_nonneg_left gap hB0)
    rw [mul_sum]
    refine sum_le_sum fun k hk => ?_
    have h := hW k (mem_range.1 hk)
    have hb := hB k (mem_range.1 hk)
    rw [abs_mul, abs_of_nonneg (by linarith [h.1] : 0 ≤ a k * (1 + t * (ρ k - 1)) - W k), ← mul_assoc]
    exact mul_le_mul_of_nonneg_right hb (by linarith [h.1])
  have e : (∑ k ∈ range n, N k * W k) / (∑ k ∈ range n, D k * W k) - u =
      ((∑ k ∈ range n, N k * W k) - u * ∑ k ∈ range n, D k * W k) / ∑ k ∈ range n, D k * W k := by
    field_simp
  rw [e, hdiff, abs_div, abs_neg, abs_of_pos hpos', div_le_iff₀ hpos']
  have hnn : 0 ≤ σ / 5 + η := by
    by_contra hc
    have g0 : 0 ≤ ∑ k ∈ range n, D k * (a k * (1 + t * (ρ k - 1)) - W k) :=
      sum_nonneg fun k hk => mul_nonneg (hD k (mem_range.1 hk)) (by linarith [(hW k (mem_range.1 hk)).1])
    nlinarith
  refine hab.trans ?_
  have := mul_le_mul_of_nonneg_left hpos (by positivity : 0 ≤ 1.02 * B * (σ / 5 + η))
  refine le_trans ?_ this
  have : 0 ≤ B * (σ / 5 + η) * D0 := by positivity
  nlinarith

end Verif.LC
