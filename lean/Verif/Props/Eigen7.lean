import Verif.Props.Eigen6
import Verif.Props.Balance2

/-!
# Eigenvalues for all contents of the uninitialised locals with which the function returns (C133, C136)
-/

namespace Verif

open Out

variable {n : ℕ}

/-- C133. Every matrix with `n` different real eigenvalues of which no two are opposite and none lies between 0 and 1e-6. The two uninitialised
locals of the balancing step hold any real numbers with which it returns (`mtx_balance_returns_iff`). Then the eigenvalue function returns 0 for
all large iteration counts and the values converge to the eigenvalues. -/
theorem mtx_eigenvalues_converge_distinct (junk : ℕ → XR) (A : Matrix (Fin n) (Fin n) ℝ) (l : Fin n → ℝ) (x : Fin n → XR) (t u : List XR)
    (hn : 0 < n) (hsz : 2 * n < SIZE_MOD) (hA : A.charpoly = ∏ i, (Polynomial.X - Polynomial.C (l i))) (hinj : Function.Injective l)
    (hl : ∀ i j, l i ≠ -l j) (hz : ∀ i, l i < 0 ∨ 1 / 1000000 < l i) (r0 c0 : ℝ) (h0 : junk 0 = XR.fin r0) (h1 : junk 1 = XR.fin c0)
    (hg : r0 + ∑ j, |A ⟨0, hn⟩ j| = 0 ∨ c0 + ∑ j, |A j ⟨0, hn⟩| = 0 ∨ 0 < r0 + ∑ j, |A ⟨0, hn⟩ j| ∧ 0 < c0 + ∑ j, |A j ⟨0, hn⟩|) :
    ∃ F, ∀ fuel ≥ F, ∃ σ : Equiv.Perm (Fin n), ∀ ε > 0, ∃ N, ∀ iter ≥ N, ∃ y : Fin n → ℝ,
      mtxEigenvalues fuel junk (mat A t) (vecOf x u) iter = ok (0, vec y u) ∧ ∀ i, |y i - l (σ i)| < ε := by
  obtain ⟨F, hF⟩ := mtx_eigenvalues_returns_good junk A x t u hn (by omega) r0 c0 h0 h1 hg
  obtain ⟨X, hX, hAX⟩ := diag_of_charpoly hinj hA
  refine ⟨F, fun fuel hf => ?_⟩
  obtain ⟨rc, v', h⟩ := hF fuel hf 0
  exact mtx_eigenvalues_converge fuel junk A X l x t u hn hsz ⟨hX, hAX⟩ (fun i j h => hl i j (by linarith)) (Or.inr hz) ⟨0, _, h⟩

/-- C133. The same for every nonsingular symmetric matrix without opposite eigenvalues. -/
theorem mtx_eigenvalues_converge_symm_good (junk : ℕ → XR) (A : Matrix (Fin n) (Fin n) ℝ) (x : Fin n → XR) (t u : List XR)
    (hn : 0 < n) (hsz : 2 * n < SIZE_MOD) (hA : A.transpose = A) (hop : NoOpposite A) (hdet : A.det ≠ 0)
    (r0 c0 : ℝ) (h0 : junk 0 = XR.fin r0) (h1 : junk 1 = XR.fin c0)
    (hg : r0 + ∑ j, |A ⟨0, hn⟩ j| = 0 ∨ c0 + ∑ j, |A j ⟨0, hn⟩| = 0 ∨ 0 < r0 + ∑ j, |A ⟨0, hn⟩ j| ∧ 0 < c0 + ∑ j, |A j ⟨0, hn⟩|) :
    ∃ F, ∀ fuel ≥ F, ∃ μ : Fin n → ℝ, A.charpoly = ∏ i, (Polynomial.X - Polynomial.C (μ i)) ∧
      ∀ ε > 0, ∃ N, ∀ iter ≥ N, ∃ y : Fin n → ℝ, mtxEigenvalues fuel junk (mat A t) (vecOf x u) iter = ok (0, vec y u) ∧
        ∀ i, |y i - μ i| < ε := by
  obtain ⟨F, hF⟩ := mtx_eigenvalues_returns_good junk A x t u hn (by omega) r0 c0 h0 h1 hg
  refine ⟨F, fun fuel hf => ?_⟩
  obtain ⟨rc, v', h⟩ := hF fuel hf 0
  exact mtx_eigenvalues_converge_symm fuel junk A x t u hn hsz hA hop hdet ⟨0, _, h⟩

/-- C136. Complex eigenvalues are reported, whatever the locals hold: if the balancing step returns the matrix `N`, and the input has an eigenvalue
whose imaginary part `b` satisfies `|b|^n > n 1e-6 ((1 + √n) K)^(n-1)`, where `K` is the sum of the absolute values of the elements of `N`,
then `zsl_mtx_eigenvalues` returns -ECOMPLEXVAL for every iteration count, with fewer than `n` values. -/
theorem mtx_eigenvalues_complex (fuel : ℕ) (junk : ℕ → XR) (A N : Matrix (Fin n) (Fin n) ℝ) (x : Fin n → XR) (t u : List XR)
    (hn : 0 < n) (hsz : 2 * n < SIZE_MOD) (rc0 : Int) (hN : mtxBalance fuel junk (mat A t) (Mtx.uninit junk n n) = ok (rc0, mat N []))
    (hsym : ¬ ∀ i j, |A i j - A j i| < 1 / 1000000) (z : ℂ) (w : Fin n → ℂ) (hw : w ≠ 0) (hz : (A.map Complex.ofReal).mulVec w = z • w)
    (hb : n * (1 / 1000000) * ((1 + √n) * ∑ i, ∑ j, |N i j|) ^ (n - 1) < |z.im| ^ n) (iter : ℕ) :
    ∃ v', mtxEigenvalues fuel junk (mat A t) (vecOf x u) iter = ok (-ECOMPLEXVAL, v') ∧ v'.sz < n := by
  obtain ⟨⟨rc, v'⟩, hrun, -⟩ := mtx_eigenvalues_safe fuel junk (mat A t) (vecOf x u) iter (mtxOf_wf _ _) (by simp [vecOf, Vec.WF, arrOf])
    (by simp [vecOf, arrOf]) (by simpa using hn) (by simpa using (by omega : n < SIZE_MOD)) _ (by simpa using hN)
  obtain ⟨d, N', W, M, -, -, -, -, -, -, c1, c2⟩ := eig_cert fuel junk A x t u iter hn hsz hsym rc v' hrun
  by_cases hs : ∀ i j : Fin n, i.val = j.val + 1 → |M i j| < 1 / 1000000
  · exfalso
    obtain ⟨rfl, -⟩ := c1 hs
    obtain ⟨l, -, hl⟩ := mtx_eigenvalues_near fuel junk A N x t u iter hn hsz hsym v' _ hN hrun
    have h3 := hl z w hw hz
    have h4 : |z.im| ^ n ≤ ∏ i, ‖z - (l i : ℂ)‖ := by
      calc |z.im| ^ n = ∏ _i : Fin n, |z.im| := by simp
        _ ≤ ∏ i, ‖z - (l i : ℂ)‖ := Finset.prod_le_prod (fun i _ => abs_nonneg _) fun i _ => by
          have := Complex.abs_im_le_norm (z - (l i : ℂ))
          simpa using this
    linarith
  · push Not at hs
    obtain ⟨i, j, hij, hle⟩ := hs
    obtain ⟨rfl, hv⟩ := c2 ⟨i, j, hij, hle⟩
    exact ⟨v', hrun, hv⟩

/-- The eigenvalues 3 and 1 are found whatever non-negative numbers the locals hold. -/
example (junk : ℕ → XR) (h0 : junk 0 = XR.fin 12345) (h1 : junk 1 = XR.fin 1) : ∃ F, ∀ fuel ≥ F, ∃ σ : Equiv.Perm (Fin 2), ∀ ε > 0,
    ∃ N, ∀ iter ≥ N, ∃ y : Fin 2 → ℝ, mtxEigenvalues fuel junk (mat !![1, 0; 2, 3] []) (vecOf ![XR.nan, XR.nan] []) iter = ok (0, vec y []) ∧
      ∀ i, |y i - ![3, 1] (σ i)| < ε := by
  refine mtx_eigenvalues_converge_distinct junk !![1, 0; 2, 3] ![3, 1] _ [] [] (by norm_num) (by rw [SIZE_MOD_eq]; norm_num) ?_ ?_ ?_ ?_ 12345 1
    h0 h1 (goodSums_nonneg _ _ (by norm_num) (by norm_num))
  · rw [Matrix.charpoly_fin_two, Fin.prod_univ_two]
    simp [Matrix.trace_fin_two, Matrix.det_fin_two]
    rw [show (Polynomial.C (3 : ℝ)) = 3 from map_ofNat Polynomial.C 3]
    ring
  · intro a b h
    fin_cases a <;> fin_cases b <;> simp_all
  · intro i j
    fin_cases i <;> fin_cases j <;> norm_num
  · intro i
    right
    fin_cases i <;> norm_num

/-- A rotation by a right angle always gives -ECOMPLEXVAL, here with 5 in both locals. -/
example (junk : ℕ → XR) (h0 : junk 0 = XR.fin 5) (h1 : junk 1 = XR.fin 5) (iter : ℕ) : ∃ v',
    mtxEigenvalues 1 junk (mat !![0, -1; 1, 0] []) (vecOf ![XR.nan, XR.nan] []) iter = ok (-ECOMPLEXVAL, v') ∧ v'.sz < 2 := by
  obtain ⟨U, hU⟩ := uninit_eq junk 2 2
  refine mtx_eigenvalues_complex 1 junk !![0, -1; 1, 0] !![0, -1; 1, 0] _ [] [] (by norm_num) (by rw [SIZE_MOD_eq]; norm_num) 0 ?_ ?_ Complex.I
    ![Complex.I, 1] ?_ ?_ ?_ iter
  · rw [hU]
    refine mtx_balance_keeps 1 junk _ U [] [] 5 5 h0 h1 one_pos (fun i => ?_) (by norm_num)
    fin_cases i <;> norm_num [Fin.sum_univ_two]
  · intro h
    have := h 0 1
    norm_num at this
  · intro h
    have := congrFun h 1
    simp at this
  · funext i
    fin_cases i <;> simp [Matrix.mulVec, dotProduct, Fin.sum_univ_two]
  · simp [Fin.sum_univ_two]
    have : √2 ≤ 2 := by
      rw [Real.sqrt_le_left (by norm_num)]
      norm_num
    nlinarith

end Verif
