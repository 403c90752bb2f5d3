import Verif.Props.Inv2
import Verif.Props.Kalman3
import Verif.Props.Eigen3

/-!
# The extended Kalman filter: a covariance that loses its symmetry (C113)
-/

namespace Verif

open Quaternion Matrix Out

/-- C113, part: with positive variances, if the reduction of `S` never meets a non-zero number below 1e-6, the covariance stays symmetric and
positive semidefinite, and a measurement never increases it. Missing: matrices `S` with such numbers, for some of which it is false
(`kalm_covariance_asymmetric`). -/
theorem kalm_covariance_noTiny_partial (junk : ℕ → XR) (x : KalmIn) (hx : x.Good) (hA : 0 < x.varA) (hM : 0 < x.varM) {P : Matrix (Fin 4) (Fin 4) ℝ}
    (hP : P.PosSemidef) (t : List XR) (q : ℍ[ℝ]) (hS : NoTiny (x.S q P)) :
    ∃ P' q', fusKalmFeed junk x.freq (optFin x.incl) x.sens (x.cfg P t) (quat q) true = ok (0, x.after.sens, x.cfg P' t, quat q', true) ∧
      P'.PosSemidef ∧ (x.prior q P).PosSemidef ∧ (x.prior q P - P').PosSemidef := by
  refine kalm_covariance_partial junk x hx hP t q fun C hC => ?_
  obtain ⟨D, h1, -, h2⟩ := mtx_inv_noTiny_partial junk (x.S q P) 0 [] [] (by omega) (kalm_S_posDef x hx.varG hA hM q hP).det_pos.ne' hS
  rw [mtxInv_uninit_eq junk _ 0 (by omega) (by omega), h1] at hC
  have hCD : D = C := by
    have := congrArg (fun o : Out (Int × Mtx XR) => match o with | ok x => x.2 | ub => mat D []) hC
    have := (mtxOf_inj this).1
    ext i j
    have := congrFun (congrFun this i) j
    simpa using this
  rw [← hCD, h2]

/-- A case which meets the hypotheses of `kalm_covariance_noTiny_partial`, with a covariance that is not zero. -/
example : NoTiny ((levelIn 100 0 1 1).S 1 (Matrix.diagonal ![1, 1, 0, 1])) := by
  have h : pureQ (0 : V3) = 0 := by ext <;> simp [pureQ]
  have hp : (levelIn 100 0 1 1).prior 1 (Matrix.diagonal ![1, 1, 0, 1]) = Matrix.diagonal ![1, 1, 0, 1] := by
    simp only [KalmIn.prior, levelIn]
    rw [h, smul_zero, add_zero, rightMul_one]
    simp
  have hS : (levelIn 100 0 1 1).S 1 (Matrix.diagonal ![1, 1, 0, 1]) = Matrix.diagonal ![1, 5, 1, 1, 5, 1] := by
    rw [KalmIn.S, hp, (level_geom 100 0 1 1).2.2, KalmIn.noise]
    ext i j
    rw [Matrix.add_apply, Matrix.mul_apply, Fin.sum_univ_four]
    simp only [Matrix.transpose_apply, Matrix.mul_diagonal]
    fin_cases i <;> fin_cases j <;> simp [levelIn] <;> norm_num
  rw [hS]
  refine noTiny_diagonal _ fun i => Or.inr ?_
  fin_cases i <;> norm_num

/-- The covariance of the witness: positive definite, with a correlation of 1e-5 between two components. -/
noncomputable def skewP : Matrix (Fin 4) (Fin 4) ℝ :=
  !![1 / 100, 0, 0, 0; 0, 1 / 100, 0, 1 / 10000000; 0, 0, 1 / 1000000000, 0; 0, 1 / 10000000, 0, 1 / 100]

theorem skewP_posDef : skewP.PosDef := by
  refine Matrix.PosDef.of_dotProduct_mulVec_pos ?_ ?_
  · rw [Matrix.IsHermitian, Matrix.conjTranspose_eq_transpose_of_trivial]
    ext i j
    fin_cases i <;> fin_cases j <;> simp [skewP]
  · intro v hv
    have e : star v ⬝ᵥ (skewP *ᵥ v) = (1 / 100) * v 0 ^ 2 + (1 / 100) * v 1 ^ 2 + (1 / 1000000000) * v 2 ^ 2 + (1 / 100) * v 3 ^ 2 +
        (2 / 10000000) * (v 1 * v 3) := by
      simp [Matrix.mulVec, dotProduct, Fin.sum_univ_four, skewP]
      ring
    rw [e]
    by_contra h
    have h0 : v 0 = 0 := by nlinarith [sq_nonneg (v 0), sq_nonneg (v 1), sq_nonneg (v 2), sq_nonneg (v 3), sq_nonneg (v 1 + v 3)]
    have h1 : v 1 = 0 := by nlinarith [sq_nonneg (v 0), sq_nonneg (v 1), sq_nonneg (v 2), sq_nonneg (v 3), sq_nonneg (v 1 + v 3)]
    have h2 : v 2 = 0 := by nlinarith [sq_nonneg (v 0), sq_nonneg (v 1), sq_nonneg (v 2), sq_nonneg (v 3), sq_nonneg (v 1 + v 3)]
    have h3 : v 3 = 0 := by nlinarith [sq_nonneg (v 0), sq_nonneg (v 1), sq_nonneg (v 2), sq_nonneg (v 3), sq_nonneg (v 1 + v 3)]
    refine hv (funext fun i => ?_)
    fin_cases i <;> assumption

/-- The diagonal of the innovation covariance of the witness. -/
noncomputable def skewD : Fin 6 → ℝ := ![1 / 100 + 4 / 1000000000, 5 / 100, 1 / 100, 1, 104 / 100, 1 + 4 / 1000000000]

/-- The innovation covariance of the witness. -/
noncomputable def skewS : Matrix (Fin 6) (Fin 6) ℝ :=
  !![1 / 100 + 4 / 1000000000, 0, 0, 0, 0, 4 / 1000000000; 0, 5 / 100, 0, 0, 4 / 10000000, 0; 0, 0, 1 / 100, 0, 0, 0; 0, 0, 0, 1, 0, 0;
    0, 4 / 10000000, 0, 0, 104 / 100, 0; 4 / 1000000000, 0, 0, 0, 0, 1 + 4 / 1000000000]

theorem skew_prior : (levelIn 100 0 (1 / 100) 1).prior 1 skewP = skewP := by
  have h : pureQ (0 : V3) = 0 := by ext <;> simp [pureQ]
  simp only [KalmIn.prior, levelIn]
  rw [h, smul_zero, add_zero, rightMul_one]
  simp

theorem skew_S : (levelIn 100 0 (1 / 100) 1).S 1 skewP = skewS := by
  rw [KalmIn.S, skew_prior, (level_geom 100 0 (1 / 100) 1).2.2, KalmIn.noise]
  ext i j
  rw [Matrix.add_apply, Matrix.mul_apply, Fin.sum_univ_four]
  simp only [Matrix.transpose_apply, Matrix.mul_apply, Fin.sum_univ_four]
  fin_cases i <;> fin_cases j <;> simp [skewS, skewP, levelIn] <;> norm_num

/-- The matrix being reduced after `k` columns. -/
noncomputable def skewM (k : ℕ) : Matrix (Fin 6) (Fin 6) ℝ := Matrix.of fun i j =>
  (if i.val < k then 1 / skewD i else 1) * skewS i j - if 4 < k ∧ i = 1 then 1 / 130000 * skewS 4 j else 0

/-- The other matrix after `k` columns. -/
noncomputable def skewN (k : ℕ) : Matrix (Fin 6) (Fin 6) ℝ := Matrix.of fun i j =>
  (if i.val < k then 1 / skewD i else 1) * (1 : Matrix (Fin 6) (Fin 6) ℝ) i j - if 4 < k ∧ i = 1 then 1 / 130000 * (1 : Matrix (Fin 6) (Fin 6) ℝ) 4 j else 0

theorem skew_pivot (k : Fin 6) : skewM k k k = skewD k := by
  fin_cases k <;> simp [skewM, skewD, skewS]

theorem skew_mul (k a : Fin 6) : mulOf (skewM k) k k a = if k = 4 ∧ a = 1 then 1 / 130000 else 0 := by
  rw [mulOf, skew_pivot]
  fin_cases k <;> fin_cases a <;> simp [skewM, skewD, skewS] <;> norm_num [abs_lt]

theorem skewD_big (k : Fin 6) : 1 / 1000000 ≤ |skewD k| := by
  fin_cases k <;> norm_num [skewD]

theorem skew_update (W : Matrix (Fin 6) (Fin 6) ℝ) (k : Fin 6) (a b : Fin 6)
    (X : ℕ → Matrix (Fin 6) (Fin 6) ℝ)
    (hX : ∀ k i j, X k i j = (if i.val < k then 1 / skewD i else 1) * W i j - if 4 < k ∧ i = 1 then 1 / 130000 * W 4 j else 0) :
    (if a = k then (X k k b - mulOf (skewM k) k k k * X k k b) / skewD k else X k a b - mulOf (skewM k) k k a * X k k b) = X (k.val + 1) a b := by
  rw [mulOf_self, skew_mul]
  simp only [hX]
  have hd : ∀ k, skewD k ≠ 0 := fun k => ne_zero_of_not_small (not_lt.2 (skewD_big k))
  fin_cases k <;> fin_cases a <;> simp [div_eq_inv_mul]

theorem skew_inv (junk : ℕ → XR) : mtxInv junk (mat skewS []) (Mtx.uninit junk 6 6) = ok (0, mat (skewN 6) []) := by
  rw [mtxInv_uninit_eq junk _ 0 (by omega) (by omega)]
  have hdet : skewS.det ≠ 0 := by
    have := kalm_S_posDef (levelIn 100 0 (1 / 100) 1) (by simp [levelIn]) (by simp [levelIn]) (by simp [levelIn]) 1 skewP_posDef.posSemidef
    rw [skew_S] at this
    exact this.det_pos.ne'
  obtain ⟨M, N, ⟨-, rfl⟩, h⟩ := mtxInv_invariant junk skewS 0 [] [] (by omega) (by omega) hdet
    (fun k M N => M = skewM k ∧ N = skewN k) (by
      refine ⟨?_, ?_⟩ <;> ext i j <;> simp [skewM, skewN]) (by
      rintro k M N Q ⟨rfl, rfl⟩ hQ
      have hQ1 : Q = 1 := by
        rcases hQ with ⟨_, h⟩ | ⟨_, h, _⟩ | ⟨h, _⟩
        · exact h
        · exact h
        · rw [skew_pivot] at h
          exact absurd h (not_lt.2 (skewD_big k))
      subst hQ1
      rw [Matrix.one_mul, Matrix.one_mul, stepMat, skew_pivot, if_neg (not_lt.2 (skewD_big k))]
      constructor
      · ext a b
        rw [Matrix.mul_assoc, normMat_mul, elimMat_mul, elimMat_mul]
        exact skew_update skewS k a b skewM fun _ _ _ => rfl
      · ext a b
        rw [Matrix.mul_assoc, normMat_mul, elimMat_mul, elimMat_mul]
        exact skew_update 1 k a b skewN fun _ _ _ => rfl)
  exact h

theorem skew_post : ((levelIn 100 0 (1 / 100) 1).post 1 skewP (skewN 6)) 1 3 ≠ ((levelIn 100 0 (1 / 100) 1).post 1 skewP (skewN 6)) 3 1 := by
  rw [KalmIn.post, KalmIn.gain, skew_prior, (level_geom 100 0 (1 / 100) 1).2.2]
  have hN : ∀ i j, skewN 6 i j = !![1 / (1 / 100 + 4 / 1000000000), 0, 0, 0, 0, 0; 0, 20, 0, 0, -1 / 130000, 0; 0, 0, 100, 0, 0, 0; 0, 0, 0, 1, 0, 0;
      0, 0, 0, 0, 100 / 104, 0; 0, 0, 0, 0, 0, 1 / (1 + 4 / 1000000000)] i j := by
    intro i j
    fin_cases i <;> fin_cases j <;> simp [skewN, skewD] <;> norm_num
  simp only [Matrix.mul_apply, Fin.sum_univ_four, Fin.sum_univ_six, Matrix.sub_apply, Matrix.transpose_apply, hN]
  simp [skewP]
  norm_num

/-- C113 is false in general: there are readings and a positive definite covariance after which the covariance is not symmetric. The
inversion of the innovation covariance leaves out the numbers below 1e-6 in one triangle and not, after scaling, in the other. -/
theorem kalm_covariance_asymmetric : ∃ (x : KalmIn) (P : Matrix (Fin 4) (Fin 4) ℝ), x.Good ∧ 0 < x.varA ∧ 0 < x.varM ∧ P.PosDef ∧ ∀ (junk : ℕ → XR) (t : List XR),
    ∃ q' P', fusKalmFeed junk x.freq (optFin x.incl) x.sens (x.cfg P t) (quat 1) true = ok (0, x.after.sens, x.cfg P' t, quat q', true) ∧ P'ᵀ ≠ P' := by
  refine ⟨levelIn 100 0 (1 / 100) 1, skewP, ⟨by simp [levelIn], by simp [levelIn], by simp [levelIn], by simp [levelIn]⟩, by simp [levelIn], by simp [levelIn],
    skewP_posDef, fun junk t => ?_⟩
  obtain ⟨C, h1, h2⟩ := kalm_feed_correct junk (levelIn 100 0 (1 / 100) 1) (by simp [levelIn]) (by simp [levelIn]) (by simp [levelIn]) (by simp [levelIn]) skewP t 1
  rw [skew_S, skew_inv] at h1
  have hC : skewN 6 = C := by
    have := congrArg (fun o : Out (Int × Mtx XR) => match o with | ok x => x.2 | ub => mat C []) h1
    have := (mtxOf_inj this).1
    ext i j
    have := congrFun (congrFun this i) j
    simpa using this
  refine ⟨_, _, h2, fun h => skew_post ?_⟩
  rw [← hC] at h
  exact (congrFun (congrFun h 3) 1)

end Verif
