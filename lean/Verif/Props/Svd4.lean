import Verif.Props.Eigen4
import Verif.Props.Svd3

/-!
# Convergence of the singular values (C134)
-/

namespace Verif

open Out Filter Topology

variable {m n : ℕ}

/-- The diagonal of a matrix similar to a Gram matrix is not negative. -/
theorem gram_diag_nonneg (G : Matrix (Fin m) (Fin n) ℝ) (P : Matrix (Fin n) (Fin n) ℝ) (i : Fin n) :
    0 ≤ (P * (G.transpose * G) * P.transpose) i i := by
  have : P * (G.transpose * G) * P.transpose = (G * P.transpose).transpose * (G * P.transpose) := by
    rw [Matrix.transpose_mul, Matrix.transpose_transpose]
    simp only [Matrix.mul_assoc]
  rw [this, Matrix.mul_apply]
  exact Finset.sum_nonneg fun l _ => mul_self_nonneg _

/-- The second output of every run of `zsl_mtx_svd` holds the square roots of the values `zsl_mtx_eigenvalues` stored for `Aᵀ A`. -/
theorem svd_sigma (fuel : ℕ) (junk : ℕ → XR) (A : Matrix (Fin m) (Fin n) ℝ) (t e : List XR) (u v : Mtx XR)
    (E0 : Matrix (Fin m) (Fin n) XR) (iter : ℕ) (hn : 0 < n) (hnm : n ≤ m) (rck : Int) (k : Fin n → ℝ) (hk : ∀ i, 0 ≤ k i)
    (heig : mtxEigenvalues fuel junk (mat (A.transpose * A) []) (Vec.uninit junk n) iter = ok (rck, vec k []))
    (rc : Int) (u' e' v' : Mtx XR) (h : mtxSvd fuel junk (mat A t) u (mtxOf E0 e) v iter = ok (rc, u', e', v')) :
    rc = 0 ∧ e' = mat (Matrix.of fun (a : Fin m) (b : Fin n) => if a.val = b.val then Real.sqrt (k b) else 0) e := by
  have hm : 0 < m := by omega
  unfold mtxSvd at h
  rw [if_neg (by simp; omega)] at h
  have hmin : ∀ [Decidable ((mat A t).rows ≤ (mat A t).cols)],
      (if (mat A t).rows ≤ (mat A t).cols then (mat A t).rows else (mat A t).cols) = n := by
    intro
    have h1 : (mat A t).rows = m := rfl
    have h2 : (mat A t).cols = n := rfl
    split_ifs with h
    · omega
    · rfl
  simp only [hmin] at h
  simp only [mat_rows, mat_cols] at h
  obtain ⟨At, hAt⟩ := uninit_eq junk n m
  obtain ⟨X1, hX1⟩ := uninit_eq junk m m
  obtain ⟨X2, hX2⟩ := uninit_eq junk n n
  have htr : mtxTrans junk (mat A t) (mtxOf At []) = ok (0, mat A.transpose []) := mtx_trans_correct junk (A.map XR.fin) At t [] hn
  rw [hAt, htr] at h
  simp only [ok_bind] at h
  rw [hX1, hX2, mtx_mult_correct] at h
  simp only [ok_bind] at h
  rw [mtx_mult_correct] at h
  simp only [ok_bind] at h
  replace h := (congrArg (fun x => x >>= _) (if_neg (lt_irrefl n))).symm.trans h
  rw [heig] at h
  simp only [ok_bind] at h
  rw [mtx_init_null] at h
  simp only [ok_bind] at h
  have hsig : ∀ i : Fin n, (CReal.sqrt (XR.fin (k i)) : XR) = XR.fin (Real.sqrt (k i)) := fun i => XR.fin_sqrt (hk i)
  have hE := forN_eq (n := n) (f := fun g (e : Mtx XR) => do
      let a ← rd (vec k []).data g
      let (_, e) ← mtxSet e g g (CReal.sqrt a)
      return e) (s := mtxOf (Matrix.of fun (_ : Fin m) (_ : Fin n) => (lit 0 : XR)) e)
    (fun i => mat (Matrix.of fun (a : Fin m) (b : Fin n) => if a.val = b.val ∧ b.val < i then Real.sqrt (k b) else 0) e) (by
      unfold mat
      congr 1
      ext a b
      simp [XR.lit_eq]) (by
      intro i hi
      have hrd : rd (vec k []).data i = ok (XR.fin (k ⟨i, hi⟩)) := by
        rw [vec_data, rd_lt (by simpa [arr] using hi)]
        simp [arr]
      rw [hrd]
      simp only [ok_bind]
      rw [hsig]
      have := mat_set (Matrix.of fun (a : Fin m) (b : Fin n) => if a.val = b.val ∧ b.val < i then Real.sqrt (k b) else 0) e
        (Real.sqrt (k ⟨i, hi⟩)) ⟨i, by omega⟩ ⟨i, hi⟩
      dsimp only at this
      rw [this]
      simp only [ok_bind, pure_eq]
      congr 2
      ext a b
      simp only [Matrix.of_apply, Fin.ext_iff]
      by_cases h1 : a.val = i ∧ b.val = i
      · rw [if_pos h1, if_pos ⟨by omega, by omega⟩]
        congr 2
        exact Fin.ext h1.2.symm
      · rw [if_neg h1]
        exact if_congr ⟨fun h => ⟨h.1, by omega⟩, fun h => ⟨h.1, by omega⟩⟩ rfl rfl)
  rw [hE] at h
  simp only [ok_bind] at h
  obtain ⟨x1, -, h⟩ := run_inv h
  obtain ⟨x2, -, h⟩ := run_inv h
  obtain ⟨x3, -, h⟩ := run_inv h
  obtain ⟨x4, -, h⟩ := run_inv h
  have h5 := Out.ok.inj h
  refine ⟨(congrArg Prod.fst h5).symm, ((congrArg (fun p => p.2.2.1) h5).symm).trans ?_⟩
  dsimp only
  congr 1
  ext a b
  simp

/-- C134. For every matrix with at least as many rows as columns, and if the uninitialised locals of `zsl_mtx_balance` hold zero: there are
singular values, the nonnegative square roots of the eigenvalues of `Aᵀ A` with their multiplicities, and whenever `zsl_mtx_svd` returns, its
second output is a rectangular diagonal matrix whose diagonal converges to them as the iteration count grows. -/
theorem mtx_svd_sigma_converges_partial (junk : ℕ → XR) (A : Matrix (Fin m) (Fin n) ℝ) (t e : List XR) (u v : Mtx XR)
    (E0 : Matrix (Fin m) (Fin n) XR) (hn : 0 < n) (hnm : n ≤ m) (hsz : 2 * n < SIZE_MOD) (h0 : junk 0 = XR.fin 0) (h1 : junk 1 = XR.fin 0) :
    ∃ σ : Fin n → ℝ, (∀ i, 0 ≤ σ i) ∧ (A.transpose * A).charpoly = ∏ i, (Polynomial.X - Polynomial.C (σ i ^ 2)) ∧
      ∀ ε > 0, ∃ N, ∀ iter ≥ N, ∀ fuel > 0, ∀ rc u' e' v', mtxSvd fuel junk (mat A t) u (mtxOf E0 e) v iter = ok (rc, u', e', v') →
        rc = 0 ∧ ∃ s : Fin n → ℝ, e' = mat (Matrix.of fun (a : Fin m) (b : Fin n) => if a.val = b.val then s b else 0) e ∧
          ∀ i, |s i - σ i| < ε := by
  obtain ⟨M, μ, hμ, hlim, hsim, hrun⟩ := eigenvalues_seq junk (A.transpose * A) (fun i : Fin n => junk i) [] [] hn hsz (by simp)
    (noOpposite_gram A) h0 h1
  have hdiag : ∀ k i, 0 ≤ M k i i := by
    intro k i
    obtain ⟨P, -, hP⟩ := hsim k
    rw [hP]
    exact gram_diag_nonneg A P i
  have hl : ∀ i, Tendsto (fun k => M k i i) atTop (𝓝 (μ i)) := by
    intro i
    have := tendsto_pi_nhds.1 (tendsto_pi_nhds.1 hlim i) i
    rw [Matrix.diagonal_apply_eq] at this
    exact this
  have hμ0 : ∀ i, 0 ≤ μ i := fun i => ge_of_tendsto' (hl i) fun k => hdiag k i
  refine ⟨fun i => Real.sqrt (μ i), fun i => Real.sqrt_nonneg _, ?_, fun ε hε => ?_⟩
  · rw [hμ]
    exact Finset.prod_congr rfl fun i _ => by rw [Real.sq_sqrt (hμ0 i)]
  · have h2 : ∀ᶠ k in atTop, ∀ i, |Real.sqrt (M k i i) - Real.sqrt (μ i)| < ε := by
      rw [eventually_all]
      intro i
      refine ((hl i).sqrt.eventually (Metric.ball_mem_nhds _ hε)).mono fun k hk => ?_
      rw [Real.dist_eq] at hk
      exact hk
    obtain ⟨N, hN⟩ := eventually_atTop.1 h2
    refine ⟨N, fun iter hi fuel hf rc u' e' v' h => ?_⟩
    have heig := hrun iter fuel hf
    rw [← vecUninit_eq] at heig
    obtain ⟨h3, h4⟩ := svd_sigma fuel junk A t e u v E0 iter hn hnm 0 _ (hdiag iter) heig rc u' e' v' h
    exact ⟨h3, fun i => Real.sqrt (M iter i i), h4, hN iter hi⟩

/-- A run of `zsl_mtx_svd` is undefined if the eigenvalue function called inside does not return. -/
theorem svd_eig_ub (fuel : ℕ) (junk : ℕ → XR) (A : Matrix (Fin m) (Fin n) ℝ) (t e : List XR) (u v : Mtx XR)
    (E0 : Matrix (Fin m) (Fin n) XR) (iter : ℕ) (hn : 0 < n) (hnm : n ≤ m)
    (heig : mtxEigenvalues fuel junk (mat (A.transpose * A) []) (Vec.uninit junk n) iter = ub) :
    mtxSvd fuel junk (mat A t) u (mtxOf E0 e) v iter = ub := by
  have hm : 0 < m := by omega
  unfold mtxSvd
  rw [if_neg (by simp; omega)]
  have hmin : ∀ [Decidable ((mat A t).rows ≤ (mat A t).cols)],
      (if (mat A t).rows ≤ (mat A t).cols then (mat A t).rows else (mat A t).cols) = n := by
    intro
    have h1 : (mat A t).rows = m := rfl
    have h2 : (mat A t).cols = n := rfl
    split_ifs with h
    · omega
    · rfl
  simp only [hmin]
  simp only [mat_rows, mat_cols]
  obtain ⟨At, hAt⟩ := uninit_eq junk n m
  obtain ⟨X1, hX1⟩ := uninit_eq junk m m
  obtain ⟨X2, hX2⟩ := uninit_eq junk n n
  have htr : mtxTrans junk (mat A t) (mtxOf At []) = ok (0, mat A.transpose []) := mtx_trans_correct junk (A.map XR.fin) At t [] hn
  rw [hAt, htr]
  simp only [ok_bind]
  rw [hX1, hX2, mtx_mult_correct]
  simp only [ok_bind]
  rw [mtx_mult_correct]
  simp only [ok_bind]
  refine (congrArg (fun x => x >>= _) (if_neg (lt_irrefl n))).trans ?_
  rw [heig]
  rfl

/-- C134. For every matrix of full column rank, whatever the uninitialised locals hold: whenever `zsl_mtx_svd` returns, its second output is a
rectangular diagonal matrix whose diagonal converges, as the iteration count grows, to the singular values, the positive square roots of the
eigenvalues of `Aᵀ A` with their multiplicities. -/
theorem mtx_svd_sigma_converges_full (fuel : ℕ) (junk : ℕ → XR) (A : Matrix (Fin m) (Fin n) ℝ) (t e : List XR) (u v : Mtx XR)
    (E0 : Matrix (Fin m) (Fin n) XR) (hn : 0 < n) (hnm : n ≤ m) (hsz : 2 * n < SIZE_MOD) (hdet : (A.transpose * A).det ≠ 0) :
    ∃ σ : Fin n → ℝ, (∀ i, 0 < σ i) ∧ (A.transpose * A).charpoly = ∏ i, (Polynomial.X - Polynomial.C (σ i ^ 2)) ∧
      ∀ ε > 0, ∃ N, ∀ iter ≥ N, ∀ rc u' e' v', mtxSvd fuel junk (mat A t) u (mtxOf E0 e) v iter = ok (rc, u', e', v') →
        rc = 0 ∧ ∃ s : Fin n → ℝ, e' = mat (Matrix.of fun (a : Fin m) (b : Fin n) => if a.val = b.val then s b else 0) e ∧
          ∀ i, |s i - σ i| < ε := by
  have hpos : ∀ μ : Fin n → ℝ, (A.transpose * A).charpoly = ∏ i, (Polynomial.X - Polynomial.C (μ i)) → ∀ i, 0 < μ i := by
    intro μ hμ i
    have hroot : (A.transpose * A).charpoly.IsRoot (μ i) := by
      rw [Polynomial.IsRoot, hμ, Polynomial.eval_prod]
      exact Finset.prod_eq_zero (Finset.mem_univ i) (by simp)
    have hne : μ i ≠ 0 := by
      intro h0
      rw [h0, Polynomial.IsRoot, Matrix.eval_charpoly] at hroot
      have : Matrix.scalar (Fin n) (0 : ℝ) - A.transpose * A = -(A.transpose * A) := by simp
      rw [this, Matrix.det_neg] at hroot
      exact hdet ((mul_eq_zero.1 hroot).resolve_left (pow_ne_zero _ (by norm_num)))
    refine lt_of_le_of_ne ?_ hne.symm
    rw [Polynomial.IsRoot, Matrix.eval_charpoly] at hroot
    obtain ⟨w, hw, hw'⟩ := Matrix.exists_mulVec_eq_zero_iff.2 hroot
    rw [Matrix.sub_mulVec, sub_eq_zero] at hw'
    have h1 : w ⬝ᵥ (A.transpose * A).mulVec w = (A.mulVec w) ⬝ᵥ (A.mulVec w) := by
      rw [← Matrix.mulVec_mulVec, Matrix.dotProduct_mulVec, Matrix.vecMul_transpose]
    rw [← hw', Matrix.scalar_apply] at h1
    have h2 : w ⬝ᵥ (Matrix.diagonal fun _ => μ i).mulVec w = μ i * (w ⬝ᵥ w) := by
      rw [dotProduct, dotProduct, Finset.mul_sum]
      refine Finset.sum_congr rfl fun a _ => ?_
      rw [Matrix.mulVec_diagonal]
      ring
    have h3 : 0 ≤ (A.mulVec w) ⬝ᵥ (A.mulVec w) := Finset.sum_nonneg fun a _ => mul_self_nonneg _
    have h4 : 0 < w ⬝ᵥ w := by
      obtain ⟨a, ha⟩ := Function.ne_iff.1 hw
      exact Finset.sum_pos' (fun a _ => mul_self_nonneg _) ⟨a, Finset.mem_univ a, mul_self_pos.2 ha⟩
    rw [h2] at h1
    by_contra hc
    push Not at hc
    nlinarith
  by_cases hret : ∃ iter r, mtxEigenvalues fuel junk (mat (A.transpose * A) []) (vecOf (fun i : Fin n => junk i) []) iter = ok r
  · obtain ⟨μ, hμ, hconv⟩ := mtx_eigenvalues_converge_symm fuel junk (A.transpose * A) (fun i : Fin n => junk i) [] [] hn hsz (by simp)
      (noOpposite_gram A) hdet hret
    have hμ0 := hpos μ hμ
    refine ⟨fun i => Real.sqrt (μ i), fun i => Real.sqrt_pos.2 (hμ0 i), ?_, fun ε hε => ?_⟩
    · rw [hμ]
      exact Finset.prod_congr rfl fun i _ => by rw [Real.sq_sqrt (hμ0 i).le]
    · have hcont : ∀ i, ∃ δ > 0, ∀ y, |y - μ i| < δ → 0 ≤ y ∧ |Real.sqrt y - Real.sqrt (μ i)| < ε := by
        intro i
        have h1 := Metric.continuousAt_iff.1 (Real.continuous_sqrt.continuousAt (x := μ i)) ε hε
        obtain ⟨δ, hδ, h⟩ := h1
        refine ⟨min δ (μ i), lt_min hδ (hμ0 i), fun y hy => ⟨?_, ?_⟩⟩
        · have := (abs_lt.1 (hy.trans_le (min_le_right _ _))).1
          linarith
        · have := h (x := y) (by rw [Real.dist_eq]; exact hy.trans_le (min_le_left _ _))
          rwa [Real.dist_eq] at this
      choose δ hδ hy using hcont
      have hne : (Finset.univ : Finset (Fin n)).Nonempty := ⟨⟨0, hn⟩, Finset.mem_univ _⟩
      obtain ⟨N, hN⟩ := hconv (Finset.univ.inf' hne δ) ((Finset.lt_inf'_iff hne).2 fun i _ => hδ i)
      refine ⟨N, fun iter hi rc u' e' v' h => ?_⟩
      obtain ⟨y, heig, hyy⟩ := hN iter hi
      have hy' : ∀ i, 0 ≤ y i ∧ |Real.sqrt (y i) - Real.sqrt (μ i)| < ε := fun i =>
        hy i (y i) ((hyy i).trans_le (Finset.inf'_le _ (Finset.mem_univ i)))
      rw [← vecUninit_eq] at heig
      obtain ⟨h3, h4⟩ := svd_sigma fuel junk A t e u v E0 iter hn hnm 0 _ (fun i => (hy' i).1) heig rc u' e' v' h
      exact ⟨h3, fun i => Real.sqrt (y i), h4, fun i => (hy' i).2⟩
  · obtain ⟨X, μ, hX, hAX⟩ := diag_of_symm (A := A.transpose * A) (by simp)
    have hμ := charpoly_of_diag hX hAX
    have hμ0 := hpos μ hμ
    refine ⟨fun i => Real.sqrt (μ i), fun i => Real.sqrt_pos.2 (hμ0 i), ?_, fun ε _ => ⟨0, fun iter _ rc u' e' v' h => ?_⟩⟩
    · rw [hμ]
      exact Finset.prod_congr rfl fun i _ => by rw [Real.sq_sqrt (hμ0 i).le]
    · exfalso
      cases he : mtxEigenvalues fuel junk (mat (A.transpose * A) []) (vecOf (fun i : Fin n => junk i) []) iter with
      | ok r => exact hret ⟨iter, r, he⟩
      | ub =>
        rw [← vecUninit_eq] at he
        rw [svd_eig_ub fuel junk A t e u v E0 iter hn hnm he] at h
        cases h

/-- Non-vacuity: a 4x3 matrix of rank 2 for which the decomposition returns, for every iteration count. -/
example (junk : ℕ → XR) (h0 : junk 0 = XR.fin 0) (h1 : junk 1 = XR.fin 0) (iter : ℕ) :
    ∃ fuel > 0, ∃ u' e' v', mtxSvd fuel junk (mat (rectDiag 4 ![-3, 2, 0]) []) (mat (0 : Matrix (Fin 4) (Fin 4) ℝ) [])
      (mat (0 : Matrix (Fin 4) (Fin 3) ℝ) []) (mat (0 : Matrix (Fin 3) (Fin 3) ℝ) []) iter = ok (0, u', e', v') := by
  obtain ⟨F, hF⟩ := mtx_svd_diagonal (m := 4) junk ![-3, 2, 0] [] [] [] [] ((0 : Matrix (Fin 4) (Fin 4) ℝ).map XR.fin)
    ((0 : Matrix (Fin 4) (Fin 3) ℝ).map XR.fin) ((0 : Matrix (Fin 3) (Fin 3) ℝ).map XR.fin) iter (by norm_num) (by norm_num)
    (by rw [SIZE_MOD_eq]; norm_num) h0 h1 (by
      intro i j hij
      revert hij
      fin_cases i <;> fin_cases j <;> (norm_num; try decide)) (by
      intro i
      fin_cases i <;> norm_num) (by
      intro i j
      fin_cases i <;> fin_cases j <;> norm_num)
  obtain ⟨U, V, h2, -⟩ := hF (F + 1) (by omega)
  exact ⟨F + 1, by omega, _, _, _, h2⟩

/-- Non-vacuity: a 4x3 matrix of full column rank that meets the hypotheses of `mtx_svd_sigma_converges_full` and for which the decomposition
returns. -/
example (junk : ℕ → XR) (h0 : junk 0 = XR.fin 0) (h1 : junk 1 = XR.fin 0) (iter : ℕ) :
    ((rectDiag 4 ![(-3 : ℝ), 2, 1]).transpose * rectDiag 4 ![(-3 : ℝ), 2, 1]).det ≠ 0 ∧
    ∃ fuel > 0, ∃ u' e' v', mtxSvd fuel junk (mat (rectDiag 4 ![-3, 2, 1]) []) (mat (0 : Matrix (Fin 4) (Fin 4) ℝ) [])
      (mat (0 : Matrix (Fin 4) (Fin 3) ℝ) []) (mat (0 : Matrix (Fin 3) (Fin 3) ℝ) []) iter = ok (0, u', e', v') := by
  obtain ⟨F, hF⟩ := mtx_svd_diagonal (m := 4) junk ![-3, 2, 1] [] [] [] [] ((0 : Matrix (Fin 4) (Fin 4) ℝ).map XR.fin)
    ((0 : Matrix (Fin 4) (Fin 3) ℝ).map XR.fin) ((0 : Matrix (Fin 3) (Fin 3) ℝ).map XR.fin) iter (by norm_num) (by norm_num)
    (by rw [SIZE_MOD_eq]; norm_num) h0 h1 (by
      intro i j hij
      revert hij
      fin_cases i <;> fin_cases j <;> (norm_num; try decide)) (by
      intro i
      fin_cases i <;> norm_num) (by
      intro i j
      fin_cases i <;> fin_cases j <;> norm_num)
  obtain ⟨U, V, h2, -⟩ := hF (F + 1) (by omega)
  refine ⟨?_, F + 1, by omega, _, _, _, h2⟩
  simp [Matrix.det_fin_three, Matrix.mul_apply, rectDiag, Fin.sum_univ_succ]

end Verif
