import Verif.Model.Statistics
import Verif.Spec.Statistics
import Verif.Lemmas.VecReal
import Verif.Props.Vectors3
import Mathlib.Algebra.Order.Chebyshev

/-!
# Statistics: weighted mean (C42), de-meaning (C43), variance and covariance (C44), simple regression (C45), error measures (C47)
-/

namespace Verif

open Out

variable {n : ℕ}

theorem vec_rd (x : Fin n → ℝ) (t : List XR) (i : Fin n) : rd (vec x t).data i = ok (XR.fin (x i)) := (vec_is x t).rd i

theorem staMean_vec (x : Fin n → ℝ) (t : List XR) (m : XR) (hn : 1 ≤ n) : staMean (vec x t) m = ok (0, XR.fin (meanOf x)) := by
  obtain ⟨k, rfl⟩ : ∃ k, n = k + 1 := ⟨n - 1, by omega⟩
  rw [staMean, vec_ar_mean_correct _ x m (vec_is x t), ok_bind]
  simp only [pure_eq, meanOf, Nat.cast_add, Nat.cast_one]

/-! ## C43 -/

theorem vecScalarAdd_vec (x : Fin n → ℝ) (s : ℝ) (t : List XR) :
    vecScalarAdd (vec x t) (XR.fin s) = ok (0, vec (fun i => x i + s) t) := by
  rw [vec_scalar_add_correct _ _ (vec_wf x t)]
  congr 2
  rw [vec_sz, vec_drop, vec_vals]
  refine vec_ext _ _ _ ?_
  rw [List.map_ofFn]
  rfl

theorem staDemean_vec (m0 : XR) (x : Fin n → ℝ) (y : Fin n → XR) (t u : List XR) (hn : 1 ≤ n) :
    staDemean m0 (vec x t) (vecOf y u) = ok (0, vec (fun i => x i - meanOf x) u) := by
  rw [staDemean, if_neg (by simp), vec_eq_vecOf x t, vecCopy_vec, ok_bind]
  dsimp only
  rw [← vec_eq_vecOf, staMean_vec _ _ _ hn, ok_bind]
  dsimp only
  rw [XR.fin_neg, ← vec_eq_vecOf, vecScalarAdd_vec, ok_bind]
  rfl

theorem sum_sub_mean (x : Fin n → ℝ) (hn : 1 ≤ n) : ∑ i, (x i - meanOf x) = 0 := by
  have : (n : ℝ) ≠ 0 := by positivity
  rw [Finset.sum_sub_distrib, Finset.sum_const, Finset.card_univ, Fintype.card_fin, nsmul_eq_mul, meanOf]
  field_simp
  ring

/-- C43: the result is the data minus its mean; its own mean is zero and its differences are those of the data. -/
theorem sta_demean_correct (m0 : XR) (x : Fin n → ℝ) (y : Fin n → XR) (t u : List XR) (hn : 1 ≤ n) :
    ∃ z : Fin n → ℝ, staDemean m0 (vec x t) (vecOf y u) = ok (0, vec z u) ∧ (∀ i, z i = x i - (∑ j, x j) / n) ∧
      (∑ i, z i) / n = 0 ∧ ∀ i j, z i - z j = x i - x j := by
  refine ⟨_, staDemean_vec m0 x y t u hn, fun i => rfl, ?_, fun i j => by ring⟩
  rw [sum_sub_mean x hn, zero_div]

/-- C43: size mismatch. -/
theorem sta_demean_mismatch {R : Type} [CReal R] (m0 : R) (v w : Vec R) (h : v.sz ≠ w.sz) : staDemean m0 v w = ok (-EINVAL, w) := by
  rw [staDemean, if_pos h]

/-! ## C42 -/

theorem sumLoop (x : Fin n → ℝ) (t : List XR) :
    forN n (fun i s => do
      let a ← rd (vec x t).data i
      return s + a) (lit 0) = ok (XR.fin (∑ i, x i)) := by
  rw [XR.lit_eq, forN_sum x (fun i t' => by rw [vec_rd, ok_bind]; rfl)]
  simp

theorem negLoop (y : Fin n → ℝ) (u : List XR) :
    forRet n (fun i (_ : Unit) => do
      let a ← rd (vec y u).data i
      if CReal.lt a (lit 0) then return Ctl.ret () else return Ctl.next ()) () =
      ok (if ∃ i, y i < 0 then Ctl.ret () else Ctl.next ()) := by
  classical
  rw [forRet_unit (fun i => if h : i < n then decide (y ⟨i, h⟩ < 0) else false) ()]
  · congr 1
    refine if_congr ?_ rfl rfl
    rw [List.any_eq_true]
    constructor
    · rintro ⟨i, hi, h⟩
      rw [List.mem_range] at hi
      rw [dif_pos hi] at h
      exact ⟨⟨i, hi⟩, by simpa using h⟩
    · rintro ⟨i, h⟩
      exact ⟨i, List.mem_range.2 i.2, by simpa using h⟩
  · intro i hi
    rw [show rd (vec y u).data i = ok (XR.fin (y ⟨i, hi⟩)) from vec_rd y u ⟨i, hi⟩, ok_bind, dif_pos hi]
    by_cases h : y ⟨i, hi⟩ < 0
    · rw [if_pos (by simpa using h)]; simp [h]
    · rw [if_neg (by simpa using h)]; simp [h]

/-- C42: what `zsl_sta_weighted_mean` does for every pair of vectors of the same size. -/
theorem sta_weighted_mean_value (x y : Fin n → ℝ) (t u : List XR) (m : XR) :
    staWeightedMean (vec x t) (vec y u) m =
      ok (if (∃ i, y i < 0) ∨ |∑ i, y i| < 1e-6 then (-EINVAL, m) else (0, XR.fin ((∑ i, y i * x i) / ∑ i, y i))) := by
  rw [staWeightedMean, vec_sz, sumLoop, ok_bind, if_neg (by simp), negLoop, ok_bind]
  have hcast : (((1e-6 : ℚ)) : ℝ) = 1e-6 := by norm_num
  by_cases h : ∃ i, y i < 0
  · rw [if_pos h, if_pos (Or.inl h)]; rfl
  · rw [if_neg h]
    dsimp only
    rw [XR.fin_abs, XR.lit_eq, hcast]
    by_cases h2 : |∑ i, y i| < 1e-6
    · rw [if_pos (by rw [XR.fin_lt]; exact h2), if_pos (Or.inr h2)]; rfl
    · rw [if_neg (by rw [XR.fin_lt]; exact h2), if_neg (by tauto), XR.lit_eq,
        forN_sum (fun i => y i * x i) (fun i t' => by rw [vec_rd, ok_bind, vec_rd, ok_bind]; rfl), ok_bind]
      have hne : ∑ i, y i ≠ 0 := by
        intro h0; rw [h0] at h2; norm_num at h2
      rw [XR.fin_div hne, pure_eq]
      simp

/-- C42: with non-negative weights that are not all (nearly) zero the result lies between the extremes of the data. -/
theorem sta_weighted_mean_between (x y : Fin n → ℝ) (t u : List XR) (m : XR) (hy : ∀ i, 0 ≤ y i) (hs : 1e-6 ≤ ∑ i, y i)
    (lo hi : ℝ) (hlo : ∀ i, lo ≤ x i) (hhi : ∀ i, x i ≤ hi) :
    ∃ a, staWeightedMean (vec x t) (vec y u) m = ok (0, XR.fin a) ∧ lo ≤ a ∧ a ≤ hi := by
  have hpos : 0 < ∑ i, y i := lt_of_lt_of_le (by norm_num) hs
  refine ⟨(∑ i, y i * x i) / ∑ i, y i, ?_, ?_, ?_⟩
  · rw [sta_weighted_mean_value, if_neg]
    rintro (⟨i, h⟩ | h)
    · exact absurd (hy i) (by linarith)
    · rw [abs_of_pos hpos] at h; linarith
  · rw [le_div_iff₀ hpos, Finset.mul_sum]
    exact Finset.sum_le_sum fun i _ => by nlinarith [hy i, hlo i]
  · rw [div_le_iff₀ hpos, Finset.mul_sum]
    exact Finset.sum_le_sum fun i _ => by nlinarith [hy i, hhi i]

/-- C42: equal weights give the plain mean. -/
theorem sta_weighted_mean_equal (x : Fin n → ℝ) (t u : List XR) (m : XR) (a : ℝ) (hs : 1e-6 ≤ n * a) :
    staWeightedMean (vec x t) (vec (fun _ : Fin n => a) u) m = ok (0, XR.fin ((∑ i, x i) / n)) := by
  have hn : 0 < n := by
    rcases Nat.eq_zero_or_pos n with h | h
    · subst h; norm_num at hs
    · exact h
  have hn' : (0 : ℝ) < n := by exact_mod_cast hn
  have ha : 0 < a := by
    by_contra h
    have : (n : ℝ) * a ≤ 0 := mul_nonpos_of_nonneg_of_nonpos hn'.le (not_lt.1 h)
    norm_num at hs
    linarith
  rw [sta_weighted_mean_value, if_neg]
  · congr 3
    rw [← Finset.mul_sum]
    simp only [Finset.sum_const, Finset.card_univ, Fintype.card_fin, nsmul_eq_mul]
    field_simp
  · rintro (⟨i, h⟩ | h)
    · exact absurd h (by linarith)
    · simp only [Finset.sum_const, Finset.card_univ, Fintype.card_fin, nsmul_eq_mul] at h
      rw [abs_of_pos (by positivity)] at h
      linarith

/-- C42, part: a size mismatch is refused provided the weight buffer has as many cells as there are data. -/
theorem sta_weighted_mean_mismatch_partial (v w : Vec XR) (m : XR) (h : v.sz ≠ w.sz) (hw : v.sz ≤ w.data.length) :
    staWeightedMean v w m = ok (-EINVAL, m) := by
  rw [staWeightedMean]
  have : (forN v.sz (fun i s => do
      let a ← rd w.data i
      return s + a) (lit 0 : XR)).sat fun _ => True := by
    refine forN_sat (fun _ _ => True) trivial ?_
    intro i hi s _
    rw [rd_lt (by omega), ok_bind, pure_eq, sat_ok]
    trivial
  obtain ⟨s, hs, -⟩ := this
  rw [hs, ok_bind, if_pos h]
  rfl

/-- C42 fails for a weight buffer shorter than the data: the weights are summed before the sizes are compared. -/
theorem sta_weighted_mean_overread (m : XR) : staWeightedMean ⟨2, [XR.fin 1, XR.fin 2]⟩ ⟨1, [XR.fin 1]⟩ m = ub := by
  rw [staWeightedMean]
  have : forN 2 (fun i s => do
      let a ← rd [XR.fin 1] i
      return s + a) (lit 0 : XR) = ub := by
    rw [forN_succ, forN_succ, forN_zero, ok_bind, rd_lt (by simp), ok_bind, pure_eq, ok_bind, rd_ge (by simp)]
    rfl
  dsimp only
  rw [this]
  rfl

example (m : XR) : staWeightedMean (vec ![1, 5] []) (vec ![3, 1] []) m = ok (0, XR.fin 2) := by
  rw [sta_weighted_mean_value, if_neg]
  · norm_num [Fin.sum_univ_two]
  · simp only [Fin.exists_fin_two, Fin.sum_univ_two, Matrix.cons_val_zero, Matrix.cons_val_one]; norm_num

/-! ## C44 -/

theorem szSub_one_cast (hn : 2 ≤ n) : ((szSub n 1 : ℕ) : ℝ) = (n : ℝ) - 1 := by
  rw [szSub_le (by omega), Nat.cast_sub (by omega), Nat.cast_one]

theorem sub_one_pos (hn : 2 ≤ n) : (0 : ℝ) < (n : ℝ) - 1 := by
  have : (2 : ℝ) ≤ n := by exact_mod_cast hn
  linarith

/-- C44: `zsl_sta_var` is the sample variance. -/
theorem sta_var_correct (junk : ℕ → XR) (x : Fin n → ℝ) (t : List XR) (hn : 2 ≤ n) :
    staVar junk (vec x t) = ok (0, XR.fin (varOf x)) := by
  rw [staVar, if_neg (by rw [vec_sz]; omega), vec_sz, vecUninit_eq, staDemean_vec _ _ _ _ _ (by omega), ok_bind]
  dsimp only
  rw [XR.lit_eq, forN_sum (fun i => (x i - meanOf x) ^ 2)
    (fun i t' => by rw [vec_rd, ok_bind, pure_eq, XR.fin_mul, XR.fin_add, pow_two]), ok_bind, XR.ofNat_eq, szSub_one_cast hn,
    XR.fin_div (sub_one_pos hn).ne']
  simp [varOf]

/-- C44: `zsl_sta_covar` is the sample covariance. -/
theorem sta_covar_correct (junk : ℕ → XR) (x y : Fin n → ℝ) (t u : List XR) (c : XR) (hn : 2 ≤ n) :
    staCovar junk (vec x t) (vec y u) c = ok (0, XR.fin (covOf x y)) := by
  rw [staCovar, if_neg (by simp), if_neg (by rw [vec_sz]; omega), vec_sz, vec_sz, vecUninit_eq, staDemean_vec _ _ _ _ _ (by omega), ok_bind]
  dsimp only
  rw [staDemean_vec _ _ _ _ _ (by omega), ok_bind]
  dsimp only
  rw [XR.lit_eq, forN_sum (fun i => (x i - meanOf x) * (y i - meanOf y))
    (fun i t' => by rw [vec_rd, ok_bind, vec_rd, ok_bind]; rfl), ok_bind, XR.ofNat_eq, szSub_one_cast hn,
    XR.fin_div (sub_one_pos hn).ne']
  simp [covOf]

/-- C44: covariance of vectors of different size. -/
theorem sta_covar_mismatch {R : Type} [CReal R] (junk : ℕ → R) (v w : Vec R) (c : R) (h : v.sz ≠ w.sz) :
    staCovar junk v w c = ok (-EINVAL, c) := by
  rw [staCovar, if_pos h]

/-- C44: `zsl_sta_std_dev` is the square root of the variance. -/
theorem sta_std_dev_correct (junk : ℕ → XR) (x : Fin n → ℝ) (t : List XR) (hn : 2 ≤ n) :
    staStdDev junk (vec x t) = ok (0, XR.fin (Real.sqrt (varOf x))) := by
  rw [staStdDev, sta_var_correct _ _ _ hn, ok_bind]
  dsimp only
  rw [XR.fin_sqrt]
  · rfl
  · exact div_nonneg (Finset.sum_nonneg fun i _ => sq_nonneg _) (sub_one_pos hn).le

/-- C44: a single observation has the variance 0/0, that is NaN, with return code 0. -/
theorem sta_var_single (junk : ℕ → XR) (x : Fin 1 → ℝ) (t : List XR) : staVar junk (vec x t) = ok (0, XR.nan) := by
  rw [staVar, if_neg (by rw [vec_sz]; omega), vec_sz, vecUninit_eq, staDemean_vec _ _ _ _ _ (by omega), ok_bind]
  dsimp only
  rw [XR.lit_eq, forN_sum (fun i => (x i - meanOf x) ^ 2)
    (fun i t' => by rw [vec_rd, ok_bind, pure_eq, XR.fin_mul, XR.fin_add, pow_two]), ok_bind, XR.ofNat_eq, szSub_le (by omega)]
  simp [meanOf, XR.fin_div_zero, XR.infOf]

theorem meanOf_affine (x : Fin n → ℝ) (s c : ℝ) (hn : 1 ≤ n) : meanOf (fun i => s * x i + c) = s * meanOf x + c := by
  have : (n : ℝ) ≠ 0 := by positivity
  rw [meanOf, meanOf, Finset.sum_add_distrib, ← Finset.mul_sum, Finset.sum_const, Finset.card_univ, Fintype.card_fin, nsmul_eq_mul]
  field_simp

/-- C44: the variance is non-negative, and zero exactly for constant data. -/
theorem sta_var_nonneg (junk : ℕ → XR) (x : Fin n → ℝ) (t : List XR) (hn : 2 ≤ n) :
    ∃ a, staVar junk (vec x t) = ok (0, XR.fin a) ∧ 0 ≤ a ∧ (a = 0 ↔ ∀ i j, x i = x j) := by
  have hp := sub_one_pos hn
  refine ⟨_, sta_var_correct junk x t hn, div_nonneg (Finset.sum_nonneg fun i _ => sq_nonneg _) hp.le, ?_⟩
  rw [varOf, div_eq_zero_iff]
  constructor
  · rintro (h | h)
    · rw [Finset.sum_eq_zero_iff_of_nonneg fun i _ => sq_nonneg _] at h
      have h' : ∀ i, x i = meanOf x := fun i => sub_eq_zero.1 (pow_eq_zero_iff two_ne_zero |>.1 (h i (Finset.mem_univ i)))
      intro i j
      rw [h' i, h' j]
    · exact absurd h hp.ne'
  · intro h
    left
    apply Finset.sum_eq_zero
    intro i _
    have hm : meanOf x = x i := by
      have hn0 : (n : ℝ) ≠ 0 := by positivity
      rw [meanOf, Finset.sum_congr rfl fun j _ => h j i, Finset.sum_const, Finset.card_univ, Fintype.card_fin, nsmul_eq_mul]
      field_simp
    rw [hm]; ring

/-- C44: shifts do not change the variance, scaling by `s` multiplies it by `s ^ 2`. -/
theorem sta_var_affine (junk : ℕ → XR) (x : Fin n → ℝ) (t : List XR) (s c : ℝ) (hn : 2 ≤ n) :
    ∃ a, staVar junk (vec x t) = ok (0, XR.fin a) ∧ staVar junk (vec (fun i => s * x i + c) t) = ok (0, XR.fin (s ^ 2 * a)) := by
  refine ⟨_, sta_var_correct junk x t hn, ?_⟩
  rw [sta_var_correct junk _ t hn, varOf, varOf, meanOf_affine x s c (by omega), ← mul_div_assoc, Finset.mul_sum]
  congr 4
  apply Finset.sum_congr rfl
  intro i _
  ring

/-- C44: covariance is symmetric, linear in the first argument (hence in both), the variance on the diagonal, and bounded by the
variances. -/
theorem sta_covar_laws (junk : ℕ → XR) (x x' y : Fin n → ℝ) (t u : List XR) (c : XR) (s : ℝ) (hn : 2 ≤ n) :
    ∃ a b b' vx vy,
      staCovar junk (vec x t) (vec y u) c = ok (0, XR.fin a) ∧
      staCovar junk (vec y u) (vec x t) c = ok (0, XR.fin a) ∧
      staCovar junk (vec x' t) (vec y u) c = ok (0, XR.fin b) ∧
      staCovar junk (vec (fun i => s * x i + x' i) t) (vec y u) c = ok (0, XR.fin b') ∧ b' = s * a + b ∧
      staVar junk (vec x t) = ok (0, XR.fin vx) ∧ staVar junk (vec y u) = ok (0, XR.fin vy) ∧
      staCovar junk (vec x t) (vec x t) c = ok (0, XR.fin vx) ∧ a ^ 2 ≤ vx * vy := by
  have hp := sub_one_pos hn
  refine ⟨_, _, _, _, _, sta_covar_correct junk x y t u c hn, ?_, sta_covar_correct junk x' y t u c hn,
    sta_covar_correct junk _ y t u c hn, ?_, sta_var_correct junk x t hn, sta_var_correct junk y u hn, ?_, ?_⟩
  · rw [sta_covar_correct junk y x u t c hn, covOf, covOf]
    congr 4
    exact Finset.sum_congr rfl fun i _ => mul_comm _ _
  · have hm : meanOf (fun i => s * x i + x' i) = s * meanOf x + meanOf x' := by
      rw [meanOf, meanOf, meanOf, Finset.sum_add_distrib, ← Finset.mul_sum]; ring
    rw [covOf, covOf, covOf, hm, ← mul_div_assoc, ← add_div, Finset.mul_sum, ← Finset.sum_add_distrib]
    congr 1
    apply Finset.sum_congr rfl
    intro i _
    ring
  · rw [sta_covar_correct junk x x t t c hn, covOf, varOf]
    congr 4
    exact Finset.sum_congr rfl fun i _ => (pow_two _).symm
  · rw [covOf, varOf, varOf, div_pow, div_mul_div_comm, ← pow_two]
    apply div_le_div_of_nonneg_right _ (by positivity)
    exact Finset.sum_mul_sq_le_sq_mul_sq _ _ _

/-! ## C45 -/

theorem linreg_sums (x y : Fin n → ℝ) (t u : List XR) :
    forN n (fun i (s : RegSums XR) => do
      let a ← rd (vec x t).data i
      let b ← rd (vec y u).data i
      return ⟨s.x + a, s.y + b, s.xy + a * b, s.xx + a * a, s.yy + b * b⟩) ⟨lit 0, lit 0, lit 0, lit 0, lit 0⟩ =
    ok ⟨XR.fin (∑ i, x i), XR.fin (∑ i, y i), XR.fin (∑ i, x i * y i), XR.fin (∑ i, x i * x i), XR.fin (∑ i, y i * y i)⟩ := by
  have gen : ∀ (k : ℕ) (h : k ≤ n), forN k (fun i (s : RegSums XR) => do
      let a ← rd (vec x t).data i
      let b ← rd (vec y u).data i
      return ⟨s.x + a, s.y + b, s.xy + a * b, s.xx + a * a, s.yy + b * b⟩) ⟨lit 0, lit 0, lit 0, lit 0, lit 0⟩ =
    ok ⟨XR.fin (∑ i : Fin k, x (i.castLE h)), XR.fin (∑ i : Fin k, y (i.castLE h)),
      XR.fin (∑ i : Fin k, x (i.castLE h) * y (i.castLE h)), XR.fin (∑ i : Fin k, x (i.castLE h) * x (i.castLE h)),
      XR.fin (∑ i : Fin k, y (i.castLE h) * y (i.castLE h))⟩ := by
    intro k
    induction k with
    | zero => intro h; rw [forN_zero]; simp
    | succ k ih =>
      intro h
      rw [forN_succ, ih (by omega), ok_bind, show rd (vec x t).data k = ok (XR.fin (x ⟨k, by omega⟩)) from vec_rd x t ⟨k, by omega⟩, ok_bind,
        show rd (vec y u).data k = ok (XR.fin (y ⟨k, by omega⟩)) from vec_rd y u ⟨k, by omega⟩, ok_bind]
      simp only [Fin.sum_univ_castSucc]
      rfl
  have := gen n le_rfl
  simpa using this

theorem linreg_sxx (x : Fin n → ℝ) (hn : 1 ≤ n) : n * (∑ i, x i * x i) - (∑ i, x i) * (∑ i, x i) = n * ∑ i, (x i - meanOf x) ^ 2 := by
  have h0 : (n : ℝ) ≠ 0 := by positivity
  have e : ∑ i, (x i - meanOf x) ^ 2 = (∑ i, x i * x i) - 2 * meanOf x * (∑ i, x i) + n * meanOf x ^ 2 := by
    simp only [sub_sq, Finset.sum_add_distrib, Finset.sum_sub_distrib, Finset.sum_const, Finset.card_univ, Fintype.card_fin,
      nsmul_eq_mul, Finset.mul_sum]
    congr 2
    · exact Finset.sum_congr rfl fun i _ => pow_two _
    · exact Finset.sum_congr rfl fun i _ => by ring
  rw [e, meanOf]
  field_simp
  ring

theorem linreg_sxy (x y : Fin n → ℝ) (hn : 1 ≤ n) :
    n * (∑ i, x i * y i) - (∑ i, x i) * (∑ i, y i) = n * ∑ i, (x i - meanOf x) * (y i - meanOf y) := by
  have h0 : (n : ℝ) ≠ 0 := by positivity
  have e : ∑ i, (x i - meanOf x) * (y i - meanOf y) =
      (∑ i, x i * y i) - meanOf y * (∑ i, x i) - meanOf x * (∑ i, y i) + n * (meanOf x * meanOf y) := by
    simp only [sub_mul, mul_sub, Finset.sum_sub_distrib, Finset.sum_const, Finset.card_univ, Fintype.card_fin,
      nsmul_eq_mul, Finset.mul_sum]
    simp only [mul_comm (x _) (meanOf y)]
    ring
  rw [e, meanOf, meanOf]
  field_simp
  ring

theorem sxx_pos (x : Fin n → ℝ) (h : NonConst x) : 0 < ∑ i, (x i - meanOf x) ^ 2 := by
  refine lt_of_le_of_ne (Finset.sum_nonneg fun i _ => sq_nonneg _) fun h0 => ?_
  rw [eq_comm, Finset.sum_eq_zero_iff_of_nonneg fun i _ => sq_nonneg _] at h0
  obtain ⟨i, j, hij⟩ := h
  have h' : ∀ i, x i = meanOf x := fun i => sub_eq_zero.1 (pow_eq_zero_iff two_ne_zero |>.1 (h0 i (Finset.mem_univ i)))
  exact hij (by rw [h' i, h' j])

theorem NonConst.pos {x : Fin n → ℝ} (h : NonConst x) : 1 ≤ n := by
  obtain ⟨i, -, -⟩ := h
  have := i.2
  omega

/-- The slope and the intercept in terms of the centred sums. -/
theorem sta_linear_reg_value (x y : Fin n → ℝ) (t u : List XR) (c : LinReg XR) (hx : NonConst x) :
    staLinearReg (vec x t) (vec y u) c =
      let slope := (∑ i, (x i - meanOf x) * (y i - meanOf y)) / ∑ i, (x i - meanOf x) ^ 2
      ok (0, ⟨XR.fin slope, XR.fin (meanOf y - slope * meanOf x),
        XR.fin (n * ∑ i, (x i - meanOf x) * (y i - meanOf y)) /
          XR.fin (Real.sqrt ((n * ∑ i, (x i - meanOf x) ^ 2) * (n * ∑ i, (y i - meanOf y) ^ 2)))⟩) := by
  have hn := hx.pos
  have hn0 : (n : ℝ) ≠ 0 := by positivity
  have hpos := sxx_pos x hx
  have hne : (n : ℝ) * ∑ i, (x i - meanOf x) ^ 2 ≠ 0 := mul_ne_zero hn0 hpos.ne'
  have hsq : 0 ≤ ((n : ℝ) * ∑ i, (x i - meanOf x) ^ 2) * (n * ∑ i, (y i - meanOf y) ^ 2) :=
    mul_nonneg (by positivity) (mul_nonneg (by positivity) (Finset.sum_nonneg fun i _ => sq_nonneg _))
  rw [staLinearReg, if_neg (by simp), vec_sz, linreg_sums, ok_bind]
  dsimp only
  simp only [XR.ofNat_eq, XR.fin_mul, XR.fin_sub]
  rw [linreg_sxx x hn, linreg_sxx y hn, linreg_sxy x y hn, XR.fin_div hne, XR.fin_sqrt hsq]
  simp only [XR.fin_mul, XR.fin_sub]
  rw [XR.fin_div hn0, pure_eq]
  congr 3
  · congr 1
    exact mul_div_mul_left _ _ hn0
  · congr 1
    rw [mul_div_mul_left _ _ hn0, sub_div, mul_div_assoc]
    rfl

theorem sqResid_expand (x y : Fin n → ℝ) (s c : ℝ) (hn : 1 ≤ n) :
    sqResid x y s c = ∑ i, (y i - meanOf y) ^ 2 - 2 * s * ∑ i, (x i - meanOf x) * (y i - meanOf y) + s ^ 2 * ∑ i, (x i - meanOf x) ^ 2 +
      n * (meanOf y - s * meanOf x - c) ^ 2 := by
  have hx := sum_sub_mean x hn
  have hy := sum_sub_mean y hn
  set d := meanOf y - s * meanOf x - c with hd
  have e : ∀ i, (y i - (s * x i + c)) ^ 2 = (y i - meanOf y) ^ 2 - 2 * s * ((x i - meanOf x) * (y i - meanOf y)) +
      s ^ 2 * (x i - meanOf x) ^ 2 + d ^ 2 + 2 * d * (y i - meanOf y) - 2 * d * s * (x i - meanOf x) := by
    intro i; rw [hd]; ring
  rw [sqResid, Finset.sum_congr rfl fun i _ => e i]
  simp only [Finset.sum_add_distrib, Finset.sum_sub_distrib, ← Finset.mul_sum, Finset.sum_const, Finset.card_univ,
    Fintype.card_fin, nsmul_eq_mul]
  rw [Finset.sum_sub_distrib, Finset.sum_const, Finset.card_univ, Fintype.card_fin, nsmul_eq_mul] at hx hy
  rw [hx, hy]
  ring

/-- C45: the line returned minimises the sum of squared residuals, and is the only one to do so. -/
theorem sta_linear_reg_correct (x y : Fin n → ℝ) (t u : List XR) (c : LinReg XR) (hx : NonConst x) :
    ∃ (slope intercept : ℝ) (corr : XR), staLinearReg (vec x t) (vec y u) c = ok (0, ⟨XR.fin slope, XR.fin intercept, corr⟩) ∧
      (∀ s b, sqResid x y slope intercept ≤ sqResid x y s b) ∧
      (∀ s b, sqResid x y s b = sqResid x y slope intercept → s = slope ∧ b = intercept) := by
  have hn := hx.pos
  have hn0 : (0 : ℝ) < n := by positivity
  have hpos := sxx_pos x hx
  set sx := ∑ i, (x i - meanOf x) ^ 2 with hsx
  set sxy := ∑ i, (x i - meanOf x) * (y i - meanOf y) with hsxy
  have gap : ∀ s b, sqResid x y s b - sqResid x y (sxy / sx) (meanOf y - sxy / sx * meanOf x) =
      sx * (s - sxy / sx) ^ 2 + n * (meanOf y - s * meanOf x - b) ^ 2 := by
    intro s b
    rw [sqResid_expand x y s b hn, sqResid_expand x y _ _ hn, ← hsx, ← hsxy]
    field_simp
    ring
  refine ⟨sxy / sx, meanOf y - sxy / sx * meanOf x, _, sta_linear_reg_value x y t u c hx, ?_, ?_⟩
  · intro s b
    have := gap s b
    have h1 : 0 ≤ sx * (s - sxy / sx) ^ 2 := by positivity
    have h2 : 0 ≤ (n : ℝ) * (meanOf y - s * meanOf x - b) ^ 2 := by positivity
    linarith
  · intro s b h
    have := gap s b
    rw [h, sub_self] at this
    have h1 : 0 ≤ sx * (s - sxy / sx) ^ 2 := by positivity
    have h2 : 0 ≤ (n : ℝ) * (meanOf y - s * meanOf x - b) ^ 2 := by positivity
    have z1 : sx * (s - sxy / sx) ^ 2 = 0 := by linarith
    have z2 : (n : ℝ) * (meanOf y - s * meanOf x - b) ^ 2 = 0 := by linarith
    have e1 : s = sxy / sx := by
      rcases mul_eq_zero.1 z1 with h | h
      · exact absurd h hpos.ne'
      · exact sub_eq_zero.1 (pow_eq_zero_iff two_ne_zero |>.1 h)
    have e2 : meanOf y - s * meanOf x - b = 0 := by
      rcases mul_eq_zero.1 z2 with h | h
      · exact absurd h hn0.ne'
      · exact pow_eq_zero_iff two_ne_zero |>.1 h
    refine ⟨e1, ?_⟩
    rw [← e1]; linarith

/-- C45: an exact linear relation is recovered. -/
theorem sta_linear_reg_exact (x : Fin n → ℝ) (p q : ℝ) (t u : List XR) (c : LinReg XR) (hx : NonConst x) :
    ∃ corr, staLinearReg (vec x t) (vec (fun i => p * x i + q) u) c = ok (0, ⟨XR.fin p, XR.fin q, corr⟩) := by
  obtain ⟨s, b, corr, h, hmin, huniq⟩ := sta_linear_reg_correct x (fun i => p * x i + q) t u c hx
  have h0 : sqResid x (fun i => p * x i + q) p q = 0 := by simp [sqResid]
  have h1 : 0 ≤ sqResid x (fun i => p * x i + q) s b := Finset.sum_nonneg fun i _ => sq_nonneg _
  have h2 := hmin p q
  obtain ⟨rfl, rfl⟩ := huniq p q (by linarith)
  exact ⟨corr, h⟩

/-- C45, part: if the ordinates are not constant either, the correlation lies in [-1, 1]. -/
theorem sta_linear_reg_corr_partial (x y : Fin n → ℝ) (t u : List XR) (c : LinReg XR) (hx : NonConst x) (hy : NonConst y) :
    ∃ (slope intercept : XR) (corr : ℝ), staLinearReg (vec x t) (vec y u) c = ok (0, ⟨slope, intercept, XR.fin corr⟩) ∧
      -1 ≤ corr ∧ corr ≤ 1 := by
  have hn := hx.pos
  have hn0 : (0 : ℝ) < n := by positivity
  have h := sta_linear_reg_value x y t u c hx
  have px := sxx_pos x hx
  have py := sxx_pos y hy
  have hcs : (∑ i, (x i - meanOf x) * (y i - meanOf y)) ^ 2 ≤ (∑ i, (x i - meanOf x) ^ 2) * ∑ i, (y i - meanOf y) ^ 2 :=
    Finset.sum_mul_sq_le_sq_mul_sq _ _ _
  set sx := ∑ i, (x i - meanOf x) ^ 2
  set sy := ∑ i, (y i - meanOf y) ^ 2
  set sxy := ∑ i, (x i - meanOf x) * (y i - meanOf y)
  have hsq : 0 < Real.sqrt ((n * sx) * (n * sy)) := Real.sqrt_pos.2 (by positivity)
  dsimp only at h
  rw [XR.fin_div hsq.ne'] at h
  have habs : |n * sxy| ≤ Real.sqrt ((n * sx) * (n * sy)) := by
    apply Real.abs_le_sqrt
    have : (n * sxy) ^ 2 = (n : ℝ) ^ 2 * sxy ^ 2 := by ring
    rw [this]
    have : ((n : ℝ) * sx) * (n * sy) = (n : ℝ) ^ 2 * (sx * sy) := by ring
    rw [this]
    exact mul_le_mul_of_nonneg_left hcs (by positivity)
  obtain ⟨h1, h2⟩ := abs_le.1 habs
  refine ⟨_, _, _, h, ?_, ?_⟩
  · rw [le_div_iff₀ hsq]; linarith
  · rw [div_le_one hsq]; exact h2

/-- C45 fails for constant ordinates: the correlation is 0/0, delivered as NaN with return code 0. -/
theorem sta_linear_reg_corr_const (x : Fin n → ℝ) (a : ℝ) (t u : List XR) (c : LinReg XR) (hx : NonConst x) :
    ∃ slope intercept, staLinearReg (vec x t) (vec (fun _ : Fin n => a) u) c = ok (0, ⟨slope, intercept, XR.nan⟩) := by
  have h := sta_linear_reg_value x (fun _ => a) t u c hx
  have hn := hx.pos
  have hn0 : (n : ℝ) ≠ 0 := by positivity
  have hm : meanOf (fun _ : Fin n => a) = a := by simp [meanOf, hn0]
  simp only [hm, sub_self, mul_zero, ne_eq, OfNat.ofNat_ne_zero, not_false_eq_true, zero_pow, Finset.sum_const_zero, Real.sqrt_zero,
    XR.fin_div_zero, XR.infOf, lt_irrefl, if_false] at h
  exact ⟨_, _, h⟩

/-- C45: size mismatch. -/
theorem sta_linear_reg_mismatch {R : Type} [CReal R] (x y : Vec R) (c : LinReg R) (h : x.sz ≠ y.sz) :
    staLinearReg x y c = ok (-EINVAL, c) := by
  rw [staLinearReg, if_pos h]

example : NonConst (![1, 2, 4] : Fin 3 → ℝ) ∧ NonConst (![3, 3, 5] : Fin 3 → ℝ) := ⟨⟨0, 1, by norm_num⟩, ⟨0, 2, by simp⟩⟩

/-! ## C47 -/

/-- C47: the absolute error. -/
theorem sta_abs_err_correct (a b : ℝ) :
    staAbsErr (XR.fin a) (XR.fin b) = (0, XR.fin |a - b|) ∧ 0 ≤ |a - b| ∧
    staAbsErr (XR.fin b) (XR.fin a) = staAbsErr (XR.fin a) (XR.fin b) ∧
    (staAbsErr (XR.fin a) (XR.fin b) = (0, XR.fin 0) ↔ a = b) := by
  refine ⟨by simp [staAbsErr], abs_nonneg _, by simp [staAbsErr, abs_sub_comm], ?_⟩
  simp [staAbsErr, sub_eq_zero]

/-- C47, part: for a positive expected value the relative error is the absolute error in percent of the expected value.
Missing: negative and zero expected values, see `sta_rel_err_neg` and `sta_rel_err_zero`. -/
theorem sta_rel_err_partial (a b : ℝ) (hb : 0 < b) :
    staRelErr (XR.fin a) (XR.fin b) = (0, XR.fin (100 * (|a - b| / |b|))) ∧ 0 ≤ 100 * (|a - b| / |b|) := by
  refine ⟨?_, by positivity⟩
  simp only [staRelErr, XR.lit_eq, XR.fin_mul, XR.fin_sub, XR.fin_abs]
  rw [XR.fin_div hb.ne', ← mul_sub, abs_mul, abs_of_pos hb]
  congr 2
  norm_num
  ring

/-- C47 fails for negative expected values: every non-zero relative error is then negative. -/
theorem sta_rel_err_neg (a b : ℝ) (hb : b < 0) (hab : a ≠ b) :
    ∃ e, staRelErr (XR.fin a) (XR.fin b) = (0, XR.fin e) ∧ e < 0 := by
  refine ⟨|((100 : ℚ) : ℝ) * a - ((100 : ℚ) : ℝ) * b| / b, ?_, ?_⟩
  · simp only [staRelErr, XR.lit_eq, XR.fin_mul, XR.fin_sub, XR.fin_abs]
    rw [XR.fin_div hb.ne]
  · apply div_neg_of_pos_of_neg _ hb
    rw [abs_pos, ← mul_sub]
    exact mul_ne_zero (by norm_num) (sub_ne_zero.2 hab)

/-- C47: with a zero expected value the relative error is infinite, or NaN if the measured value is zero as well; the return code is
0 in both cases. -/
theorem sta_rel_err_zero (a : ℝ) : staRelErr (XR.fin a) (XR.fin 0) = (0, if a = 0 then XR.nan else XR.pinf) := by
  simp only [staRelErr, XR.lit_eq, XR.fin_mul, XR.fin_sub, XR.fin_abs, XR.fin_div_zero]
  by_cases h : a = 0
  · subst h; simp [XR.infOf]
  · have : 0 < |((100 : ℚ) : ℝ) * a - ((100 : ℚ) : ℝ) * 0| := by
      rw [abs_pos, mul_zero, sub_zero]; exact mul_ne_zero (by norm_num) h
    rw [if_neg h, XR.infOf, if_pos this]

/-- C47: the standard error is the standard deviation divided by the square root of the number of observations. -/
theorem sta_sta_err_correct (junk : ℕ → XR) (x : Fin n → ℝ) (t : List XR) (e : XR) (hn : 2 ≤ n) :
    staStaErr junk (vec x t) e = ok (0, XR.fin (Real.sqrt (varOf x) / Real.sqrt n)) := by
  have hn0 : (n : ℝ) ≠ 0 := by positivity
  have hv : 0 ≤ varOf x := div_nonneg (Finset.sum_nonneg fun i _ => sq_nonneg _) (sub_one_pos hn).le
  rw [staStaErr, if_neg (by rw [vec_sz]; omega), sta_var_correct _ _ _ hn, ok_bind, vec_sz]
  dsimp only
  rw [XR.ofNat_eq, XR.fin_div hn0, XR.fin_sqrt (by positivity), Real.sqrt_div hv]
  rfl

/-- C47: an empty vector has no standard error. -/
theorem sta_sta_err_empty {R : Type} [CReal R] (junk : ℕ → R) (v : Vec R) (e : R) (h : v.sz = 0) :
    staStaErr junk v e = ok (-EINVAL, e) := by
  rw [staStaErr, if_pos h]

end Verif
