import Verif.Props.StatRobust

/-!
# Statistics do not depend on the order of the readings, and follow a change of units (C173)
-/

namespace Verif

open Out

variable {n : ℕ}

theorem meanOf_perm (x : Fin n → ℝ) (σ : Equiv.Perm (Fin n)) : meanOf (fun i => x (σ i)) = meanOf x := by
  rw [meanOf, meanOf, Equiv.sum_comp σ x]

theorem covOf_perm (x y : Fin n → ℝ) (σ : Equiv.Perm (Fin n)) : covOf (fun i => x (σ i)) (fun i => y (σ i)) = covOf x y := by
  rw [covOf, covOf, meanOf_perm, meanOf_perm, Equiv.sum_comp σ (fun i => (x i - meanOf x) * (y i - meanOf y))]

theorem varOf_perm (x : Fin n → ℝ) (σ : Equiv.Perm (Fin n)) : varOf (fun i => x (σ i)) = varOf x := by
  rw [varOf, varOf, meanOf_perm, Equiv.sum_comp σ (fun i => (x i - meanOf x) ^ 2)]

theorem sortedOf_map (x : Fin n → ℝ) (f : ℝ → ℝ) (hf : Monotone f) : sortedOf (fun i => f (x i)) = (sortedOf x).map f := by
  refine ((sortedOf_perm _).trans ?_).eq_of_pairwise (fun a b _ _ h1 h2 => le_antisymm h1 h2) (sortedOf_pairwise _) ?_
  · rw [show List.ofFn (fun i => f (x i)) = (List.ofFn x).map f by rw [List.map_ofFn]; rfl]
    exact ((sortedOf_perm x).map f).symm
  · rw [List.pairwise_map]
    exact (sortedOf_pairwise x).imp fun h => hf h

theorem sortedOf_reorder (x : Fin n → ℝ) (σ : Equiv.Perm (Fin n)) : sortedOf (fun i => x (σ i)) = sortedOf x :=
  ((sortedOf_perm _).trans ((Equiv.Perm.ofFn_comp_perm σ x).trans (sortedOf_perm x).symm)).eq_of_pairwise (fun a b _ _ h1 h2 => le_antisymm h1 h2) (sortedOf_pairwise _)
    (sortedOf_pairwise x)

/-- C173. The mean, the variance, the standard deviation and the covariance do not depend on the order of the readings. -/
theorem sta_order (junk : ℕ → XR) (x y : Fin n → ℝ) (σ : Equiv.Perm (Fin n)) (t u : List XR) (m : XR) (hn : 2 ≤ n) :
    staMean (vec (fun i => x (σ i)) t) m = staMean (vec x t) m ∧ staVar junk (vec (fun i => x (σ i)) t) = staVar junk (vec x t) ∧
    staStdDev junk (vec (fun i => x (σ i)) t) = staStdDev junk (vec x t) ∧
    staCovar junk (vec (fun i => x (σ i)) t) (vec (fun i => y (σ i)) u) m = staCovar junk (vec x t) (vec y u) m := by
  refine ⟨?_, ?_, ?_, ?_⟩
  · rw [staMean_vec _ _ _ (by omega), staMean_vec _ _ _ (by omega), meanOf_perm]
  · rw [sta_var_correct _ _ _ hn, sta_var_correct _ _ _ hn, varOf_perm]
  · rw [sta_std_dev_correct _ _ _ hn, sta_std_dev_correct _ _ _ hn, varOf_perm]
  · rw [sta_covar_correct _ _ _ _ _ _ hn, sta_covar_correct _ _ _ _ _ _ hn, covOf_perm]

/-- C173. Nor does the regression line, with its correlation. -/
theorem sta_linear_reg_order (x y : Fin n → ℝ) (σ : Equiv.Perm (Fin n)) (t u : List XR) (c : LinReg XR) (hx : NonConst x) :
    staLinearReg (vec (fun i => x (σ i)) t) (vec (fun i => y (σ i)) u) c = staLinearReg (vec x t) (vec y u) c := by
  have hx' : NonConst (fun i => x (σ i)) := by
    obtain ⟨i, j, h⟩ := hx
    exact ⟨σ.symm i, σ.symm j, by simpa using h⟩
  rw [sta_linear_reg_value _ _ t u c hx', sta_linear_reg_value x y t u c hx]
  simp only [meanOf_perm]
  rw [Equiv.sum_comp σ (fun i => (x i - meanOf x) * (y i - meanOf y)), Equiv.sum_comp σ (fun i => (x i - meanOf x) ^ 2), Equiv.sum_comp σ (fun i => (y i - meanOf y) ^ 2)]

/-- C173. Nor do percentiles and the median. -/
theorem sta_percentile_order (fuel : ℕ) (extra : List XR) (junk : ℕ → XR) (x : Fin n → ℝ) (σ : Equiv.Perm (Fin n)) (t : List XR) (p : ℝ) (val : XR) (hn : 1 ≤ n) (hp0 : 0 < p) (hp1 : p < 100)
    (hx : SortOK fuel extra x) (hn2 : n < 2147483648) :
    staPercentile fuel extra junk (vec (fun i => x (σ i)) t) (XR.fin p) val = staPercentile fuel extra junk (vec x t) (XR.fin p) val ∧
    staMedian fuel extra junk (vec (fun i => x (σ i)) t) val = staMedian fuel extra junk (vec x t) val := by
  have hx' : SortOK fuel extra (fun i => x (σ i)) := by
    have hp : (List.ofFn fun i => x (σ i)).Perm (List.ofFn x) := Equiv.Perm.ofFn_comp_perm σ x
    refine ⟨⟨fun a ha b hb => hx.sep.1 a (hp.mem_iff.1 ha) b (hp.mem_iff.1 hb), fun a ha => hx.sep.2 a (hp.mem_iff.1 ha)⟩, hx.ex.imp id fun h hi => h ?_, hx.fuel, hx.mem⟩
    intro i j hij
    have := @hi (σ.symm i) (σ.symm j) (by simpa using hij)
    exact σ.symm.injective this
  constructor
  · rw [sta_percentile_value fuel extra junk _ t p val hn hp0 hp1 hx' hn2, sta_percentile_value fuel extra junk x t p val hn hp0 hp1 hx hn2, sortedOf_reorder]
  · rw [staMedian, staMedian, lit_fifty, sta_percentile_value fuel extra junk _ t 50 val hn (by norm_num) (by norm_num) hx' hn2,
      sta_percentile_value fuel extra junk x t 50 val hn (by norm_num) (by norm_num) hx hn2, sortedOf_reorder]

/-- C173. Change of units, `a` times the reading plus `c`: the mean and, for positive `a`, the percentiles change in the same way, the standard deviation by the factor `|a|`. -/
theorem sta_units (fuel : ℕ) (extra : List XR) (junk : ℕ → XR) (x : Fin n → ℝ) (a c : ℝ) (t : List XR) (m : XR) (hn : 2 ≤ n) :
    (∃ v, staMean (vec x t) m = ok (0, XR.fin v) ∧ staMean (vec (fun i => a * x i + c) t) m = ok (0, XR.fin (a * v + c))) ∧
    (∃ v, staStdDev junk (vec x t) = ok (0, XR.fin v) ∧ staStdDev junk (vec (fun i => a * x i + c) t) = ok (0, XR.fin (|a| * v))) ∧
    (0 < a → SortOK fuel extra x → SortOK fuel extra (fun i => a * x i + c) → n < 2147483648 → ∀ p, 0 < p → p < 100 →
      ∃ v, staPercentile fuel extra junk (vec x t) (XR.fin p) m = ok (0, XR.fin v) ∧ staPercentile fuel extra junk (vec (fun i => a * x i + c) t) (XR.fin p) m = ok (0, XR.fin (a * v + c))) := by
  refine ⟨⟨_, staMean_vec x t m (by omega), ?_⟩, ⟨_, sta_std_dev_correct junk x t hn, ?_⟩, fun ha h1 h2 hn2 p hp0 hp1 => ⟨_, sta_percentile_value fuel extra junk x t p m (by omega) hp0 hp1 h1 hn2, ?_⟩⟩
  · rw [staMean_vec _ _ _ (by omega), meanOf_affine x a c (by omega)]
  · obtain ⟨v, e1, e2⟩ := sta_var_affine junk x t a c hn
    rw [sta_var_correct junk x t hn] at e1
    rw [sta_var_correct junk _ t hn] at e2
    simp only [Out.ok.injEq, Prod.mk.injEq, true_and, XR.fin.injEq] at e1 e2
    rw [sta_std_dev_correct _ _ _ hn, e2, ← e1, Real.sqrt_mul (sq_nonneg a), Real.sqrt_sq_eq_abs]
  · rw [sta_percentile_value fuel extra junk _ t p m (by omega) hp0 hp1 h2 hn2, sortedOf_map x (fun r => a * r + c) (fun r s h => by simp only; nlinarith)]
    have hlt := floor_lt_of p (by omega : 1 ≤ n) hp0 hp1
    have g : ∀ k, k < n → ((sortedOf x).map (fun r => a * r + c)).getD k 0 = a * (sortedOf x).getD k 0 + c := by
      intro k hk
      rw [List.getD_eq_getElem _ _ (by rw [List.length_map, sortedOf_length]; exact hk), List.getElem_map, List.getD_eq_getElem _ _ (by rw [sortedOf_length]; exact hk)]
    unfold percVal
    rw [List.length_map, sortedOf_length, g _ hlt, g _ (by omega)]
    split
    · congr 3
      ring
    · rfl

/-- C173. Change of units in a regression, `p` times the abscissa plus `q` and `r` times the ordinate plus `s`: the new line is the old one in the new units, and the correlation keeps its size and,
if both factors have the same sign, its sign. -/
theorem sta_linear_reg_units (x y : Fin n → ℝ) (t u : List XR) (c : LinReg XR) (hx : NonConst x) (hy : NonConst y) (p q r s : ℝ) (hp : p ≠ 0) (hr : r ≠ 0) :
    ∃ slope icpt corr slope' icpt' corr' : ℝ, staLinearReg (vec x t) (vec y u) c = ok (0, ⟨XR.fin slope, XR.fin icpt, XR.fin corr⟩) ∧
      staLinearReg (vec (fun i => p * x i + q) t) (vec (fun i => r * y i + s) u) c = ok (0, ⟨XR.fin slope', XR.fin icpt', XR.fin corr'⟩) ∧
      (∀ z, slope' * (p * z + q) + icpt' = r * (slope * z + icpt) + s) ∧ |corr'| = |corr| ∧ (0 < p * r → corr' = corr) ∧ (p * r < 0 → corr' = -corr) := by
  have hn := hx.pos
  have hn0 : (0 : ℝ) < n := by positivity
  have hx' : NonConst (fun i => p * x i + q) := by
    obtain ⟨i, j, h⟩ := hx
    exact ⟨i, j, fun e => h (mul_left_cancel₀ hp (by linarith))⟩
  have px := sxx_pos x hx
  have py := sxx_pos y hy
  have h1 := sta_linear_reg_value x y t u c hx
  have h2 := sta_linear_reg_value (fun i => p * x i + q) (fun i => r * y i + s) t u c hx'
  simp only [meanOf_affine x p q hn, meanOf_affine y r s hn] at h2
  rw [show ∑ i, (p * x i + q - (p * meanOf x + q)) * (r * y i + s - (r * meanOf y + s)) = p * r * ∑ i, (x i - meanOf x) * (y i - meanOf y) by
      rw [Finset.mul_sum]; exact Finset.sum_congr rfl fun i _ => by ring,
    show ∑ i, (p * x i + q - (p * meanOf x + q)) ^ 2 = p ^ 2 * ∑ i, (x i - meanOf x) ^ 2 by rw [Finset.mul_sum]; exact Finset.sum_congr rfl fun i _ => by ring,
    show ∑ i, (r * y i + s - (r * meanOf y + s)) ^ 2 = r ^ 2 * ∑ i, (y i - meanOf y) ^ 2 by rw [Finset.mul_sum]; exact Finset.sum_congr rfl fun i _ => by ring] at h2
  dsimp only at h1
  set sx := ∑ i, (x i - meanOf x) ^ 2
  set sy := ∑ i, (y i - meanOf y) ^ 2
  set sxy := ∑ i, (x i - meanOf x) * (y i - meanOf y)
  have hsq : 0 < Real.sqrt ((n * sx) * (n * sy)) := Real.sqrt_pos.2 (by positivity)
  have hpr : 0 < |p * r| := abs_pos.2 (mul_ne_zero hp hr)
  have e : Real.sqrt ((n * (p ^ 2 * sx)) * (n * (r ^ 2 * sy))) = |p * r| * Real.sqrt ((n * sx) * (n * sy)) := by
    rw [show (n * (p ^ 2 * sx)) * (n * (r ^ 2 * sy)) = (p * r) ^ 2 * ((n * sx) * (n * sy)) by ring, Real.sqrt_mul (sq_nonneg _), Real.sqrt_sq_eq_abs]
  rw [e, XR.fin_div (mul_pos hpr hsq).ne'] at h2
  rw [XR.fin_div hsq.ne'] at h1
  have key : n * (p * r * sxy) / (|p * r| * Real.sqrt ((n * sx) * (n * sy))) = p * r / |p * r| * (n * sxy / Real.sqrt ((n * sx) * (n * sy))) := by
    field_simp
  refine ⟨_, _, _, _, _, _, h1, h2, ?_, ?_, ?_, ?_⟩
  · intro z
    field_simp
    ring
  · rw [key, abs_mul, abs_div, abs_abs, div_self hpr.ne', one_mul]
  · intro h
    rw [key, abs_of_pos h, div_self h.ne', one_mul]
  · intro h
    rw [key, abs_of_neg h, div_neg, div_self h.ne, neg_one_mul]

/-- C173. Data that meet the hypotheses. -/
example : SortOK 6 [] ![(3 : ℝ), 1, 1] ∧ NonConst ![(3 : ℝ), 1, 1] := ⟨sortOK311, 0, 1, by norm_num⟩

end Verif
