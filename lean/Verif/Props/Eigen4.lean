import Verif.Props.Eigen1
import Verif.Lemmas.QRGen

/-!
# Convergence of the QR iteration and of the eigenvalues of symmetric matrices (C133)

The iterates of a symmetric matrix without two opposite eigenvalues converge to a diagonal matrix with the same characteristic polynomial.
With opposite eigenvalues they need not: the iteration does not move the diagonal of a multiple of a symmetric orthogonal matrix.
-/

namespace Verif

open Out Filter Topology

variable {n : ℕ}

/-- The matrices stored for the iteration counts 0, 1, 2, ... are the steps of a QR iteration. -/
theorem qrd_iter_seq (junk : ℕ → XR) (A : Matrix (Fin n) (Fin n) ℝ) (B : Matrix (Fin n) (Fin n) XR) (t u : List XR)
    (hn : 0 < n) (hsz : n < SIZE_MOD) :
    ∃ M : ℕ → Matrix (Fin n) (Fin n) ℝ, M 0 = A ∧ (∀ k, QRStep (M k) (M (k + 1))) ∧
      ∀ iter, mtxQrdIter junk (mat A t) (mtxOf B u) iter = ok (0, mat (M iter) u) := by
  obtain ⟨U, hU⟩ := uninit_eq junk n n
  have hloop : ∀ iter, (forN iter (fun _ (s : Mtx XR × Mtx XR × Mtx XR) => do
        let x ← mtxQrd junk s.2.2 s.1 s.2.1 false
        let y ← mtxMult x.2.2 x.2.1 s.2.2
        return (x.2.1, x.2.2, y.2)) (mtxOf U [], mtxOf U [], mat A u)).sat fun s =>
      ∃ (B1 B2 : Matrix (Fin n) (Fin n) XR) (M : Matrix (Fin n) (Fin n) ℝ), s = (mtxOf B1 [], mtxOf B2 [], mat M u) := by
    intro iter
    refine forN_sat (fun _ s => ∃ (B1 B2 : Matrix (Fin n) (Fin n) XR) (M : Matrix (Fin n) (Fin n) ℝ),
      s = (mtxOf B1 [], mtxOf B2 [], mat M u)) ⟨U, U, A, rfl⟩ ?_
    rintro k _ _ ⟨B1, B2, M, rfl⟩
    obtain ⟨Q, R, hqr, -⟩ := mtx_qrd_correct junk M B1 B2 u [] [] hn hsz
    dsimp only
    rw [hqr, ok_bind]
    dsimp only
    rw [show mat M u = mtxOf (M.map XR.fin) u from rfl, mtx_mult_correct, ok_bind]
    dsimp only
    rw [pure_eq, sat_ok]
    exact ⟨_, _, _, rfl⟩
  choose s hs B1 B2 M hM using hloop
  refine ⟨M, ?_, ?_, ?_⟩
  · have h := hs 0
    rw [hM 0] at h
    have h1 := Out.ok.inj h
    have h2 : mat A u = mat (M 0) u := congrArg (fun p => p.2.2) h1
    ext i j
    exact (mat_inj h2 i j).symm
  · intro k
    have h := hs (k + 1)
    rw [forN_succ, hs k, ok_bind, hM k, hM (k + 1)] at h
    obtain ⟨Q, R, hqr, hQ, hQ', hR, hmul⟩ := mtx_qrd_correct junk (M k) (B1 k) (B2 k) u [] [] hn hsz
    dsimp only at h
    rw [hqr, ok_bind] at h
    dsimp only at h
    rw [show mat (M k) u = mtxOf ((M k).map XR.fin) u from rfl, mtx_mult_correct, ok_bind] at h
    have h2 : mat (R * Q) u = mat (M (k + 1)) u := congrArg (fun p => p.2.2) (Out.ok.inj h)
    refine ⟨Q, R, hQ, hQ', hR, hmul, ?_⟩
    ext i j
    exact (mat_inj h2 i j).symm
  · intro iter
    unfold mtxQrdIter
    rw [if_neg (by simp; omega), show mat A t = mtxOf (A.map XR.fin) t from rfl, mtx_copy_correct, ok_bind]
    simp only [mtxOf_rows]
    rw [if_neg (by simp), hU]
    have := hs iter
    rw [show mtxOf (A.map XR.fin) u = mat A u from rfl, this, ok_bind, hM iter]
    rfl

/-- No number other than zero is an eigenvalue together with its negative. -/
def NoOpposite (A : Matrix (Fin n) (Fin n) ℝ) : Prop := ∀ x : ℝ, x ≠ 0 → A.charpoly.IsRoot x → ¬ A.charpoly.IsRoot (-x)

/-- C133. For every symmetric matrix without two opposite eigenvalues the matrices stored by `zsl_mtx_qrd_iter` converge, as the iteration
count grows, to a diagonal matrix holding all the eigenvalues with their multiplicities. -/
theorem mtx_qrd_iter_converges (junk : ℕ → XR) (A : Matrix (Fin n) (Fin n) ℝ) (B : Matrix (Fin n) (Fin n) XR) (t u : List XR)
    (hn : 0 < n) (hsz : n < SIZE_MOD) (hA : A.transpose = A) (hop : NoOpposite A) :
    ∃ μ : Fin n → ℝ, A.charpoly = ∏ i, (Polynomial.X - Polynomial.C (μ i)) ∧
      ∀ ε > 0, ∃ N, ∀ iter ≥ N, ∃ M : Matrix (Fin n) (Fin n) ℝ, mtxQrdIter junk (mat A t) (mtxOf B u) iter = ok (0, mat M u) ∧
        ∀ i j, |M i j - if i = j then μ i else 0| < ε := by
  obtain ⟨M, hM0, hs, hrun⟩ := qrd_iter_seq junk A B t u hn hsz
  obtain ⟨μ, hμ, hlim⟩ := qr_tendsto M hs (by rw [hM0, hA]) (by rw [hM0]; exact hop)
  rw [hM0] at hμ
  refine ⟨μ, hμ, fun ε hε => ?_⟩
  have h1 : ∀ᶠ k in atTop, ∀ i j, |M k i j - if i = j then μ i else 0| < ε := by
    rw [eventually_all]
    intro i
    rw [eventually_all]
    intro j
    have := (tendsto_pi_nhds.1 (tendsto_pi_nhds.1 hlim i) j).eventually (Metric.ball_mem_nhds _ hε)
    refine this.mono fun k hk => ?_
    rw [Real.dist_eq, Matrix.diagonal_apply] at hk
    exact hk
  obtain ⟨N, hN⟩ := eventually_atTop.1 h1
  exact ⟨N, fun iter hi => ⟨M iter, hrun iter, hN iter hi⟩⟩

/-- A positive semidefinite matrix has no opposite eigenvalues. -/
theorem noOpposite_gram {m : ℕ} (G : Matrix (Fin m) (Fin n) ℝ) : NoOpposite (G.transpose * G) := by
  have key : ∀ x : ℝ, (G.transpose * G).charpoly.IsRoot x → 0 ≤ x := by
    intro x hx
    rw [Polynomial.IsRoot, Matrix.eval_charpoly] at hx
    obtain ⟨v, hv, h⟩ := Matrix.exists_mulVec_eq_zero_iff.2 hx
    rw [Matrix.sub_mulVec, sub_eq_zero, Matrix.scalar_apply, ← Matrix.smul_one_eq_diagonal, Matrix.smul_mulVec, Matrix.one_mulVec,
      ← Matrix.mulVec_mulVec] at h
    have h1 : x * (v ⬝ᵥ v) = (G.mulVec v) ⬝ᵥ (G.mulVec v) := by
      rw [← smul_eq_mul, ← dotProduct_smul, h, Matrix.dotProduct_mulVec, Matrix.vecMul_transpose]
    have hvv : 0 < v ⬝ᵥ v := by
      refine lt_of_le_of_ne (Finset.sum_nonneg fun i _ => mul_self_nonneg _) fun h0 => hv ?_
      exact dotProduct_self_eq_zero.1 h0.symm
    have hgg : 0 ≤ (G.mulVec v) ⬝ᵥ (G.mulVec v) := Finset.sum_nonneg fun i _ => mul_self_nonneg _
    by_contra hneg
    nlinarith
  intro x hx h1 h2
  exact hx (le_antisymm (by linarith [key _ h2]) (key _ h1))

/-- C133. The same for the Gram matrix of every matrix, with no further hypothesis. -/
theorem mtx_qrd_iter_gram_converges {m : ℕ} (junk : ℕ → XR) (G : Matrix (Fin m) (Fin n) ℝ) (B : Matrix (Fin n) (Fin n) XR) (t u : List XR)
    (hn : 0 < n) (hsz : n < SIZE_MOD) :
    ∃ μ : Fin n → ℝ, (G.transpose * G).charpoly = ∏ i, (Polynomial.X - Polynomial.C (μ i)) ∧
      ∀ ε > 0, ∃ N, ∀ iter ≥ N, ∃ M : Matrix (Fin n) (Fin n) ℝ,
        mtxQrdIter junk (mat (G.transpose * G) t) (mtxOf B u) iter = ok (0, mat M u) ∧ ∀ i j, |M i j - if i = j then μ i else 0| < ε :=
  mtx_qrd_iter_converges junk _ B t u hn hsz (by simp) (noOpposite_gram G)

/-- The values stored for the iteration counts 0, 1, 2, ... are the diagonals of a convergent sequence of matrices orthogonally similar to the
input. -/
theorem eigenvalues_seq (junk : ℕ → XR) (A : Matrix (Fin n) (Fin n) ℝ) (x : Fin n → XR) (t u : List XR)
    (hn : 0 < n) (hsz : 2 * n < SIZE_MOD) (hA : A.transpose = A) (hop : NoOpposite A) (h0 : junk 0 = XR.fin 0) (h1 : junk 1 = XR.fin 0) :
    ∃ (M : ℕ → Matrix (Fin n) (Fin n) ℝ) (μ : Fin n → ℝ), A.charpoly = ∏ i, (Polynomial.X - Polynomial.C (μ i)) ∧
      Tendsto M atTop (𝓝 (Matrix.diagonal μ)) ∧ (∀ k, ∃ P : Matrix (Fin n) (Fin n) ℝ, P * P.transpose = 1 ∧ M k = P * A * P.transpose) ∧
      ∀ iter, ∀ fuel > 0, mtxEigenvalues fuel junk (mat A t) (vecOf x u) iter = ok (0, vec (fun i => M iter i i) u) := by
  obtain ⟨U, hU⟩ := uninit_eq junk n n
  obtain ⟨Q, H, hqr, hQ, hQ', -, hmul⟩ := mtx_qrd_hess_correct junk A U U [] [] [] hn hsz
  have hH : H = Q.transpose * A * Q := by
    rw [← hmul, ← Matrix.mul_assoc, ← Matrix.mul_assoc, hQ', Matrix.one_mul, Matrix.mul_assoc, hQ', Matrix.mul_one]
  have hHs : H.transpose = H := by
    rw [hH, Matrix.transpose_mul, Matrix.transpose_mul, hA, Matrix.transpose_transpose, Matrix.mul_assoc]
  have hchar : H.charpoly = A.charpoly := by rw [← hmul, charpoly_conj hQ']
  obtain ⟨M, hM0, hs, hrun⟩ := qrd_iter_seq junk H (Q.map XR.fin) [] [] hn (by omega)
  obtain ⟨μ, hμ, hlim⟩ := qr_tendsto M hs (by rw [hM0, hHs]) (by rw [hM0, hchar]; exact hop)
  rw [hM0, hchar] at hμ
  refine ⟨M, μ, hμ, hlim, ?_, ?_⟩
  · intro k
    obtain ⟨P, hP, -, hPM⟩ := iter_similar M hs k
    refine ⟨P * Q.transpose, ?_, ?_⟩
    · rw [Matrix.transpose_mul, Matrix.transpose_transpose, Matrix.mul_assoc, ← Matrix.mul_assoc Q.transpose, hQ', Matrix.one_mul, hP]
    · rw [hPM, hM0, hH, Matrix.transpose_mul, Matrix.transpose_transpose]
      simp only [Matrix.mul_assoc]
  · intro iter fuel hf
    refine eig_sym_run fuel junk A A x t u iter hn 0 ?_ ?_ U hU Q H (M iter) hqr (hrun iter)
    · rw [hU]
      exact mtx_balance_symm_partial fuel junk A U t [] hA h0 h1 hf
    · intro i j
      rw [show A j i = A i j from congrFun (congrFun hA i) j, sub_self, abs_zero]
      norm_num

/-- C133. For every symmetric matrix without two opposite eigenvalues, and if the uninitialised locals of `zsl_mtx_balance` hold zero, the
values stored by `zsl_mtx_eigenvalues` converge to the eigenvalues with their multiplicities as the iteration count grows. -/
theorem mtx_eigenvalues_converge_partial (junk : ℕ → XR) (A : Matrix (Fin n) (Fin n) ℝ) (x : Fin n → XR) (t u : List XR)
    (hn : 0 < n) (hsz : 2 * n < SIZE_MOD) (hA : A.transpose = A) (hop : NoOpposite A) (h0 : junk 0 = XR.fin 0) (h1 : junk 1 = XR.fin 0) :
    ∃ μ : Fin n → ℝ, A.charpoly = ∏ i, (Polynomial.X - Polynomial.C (μ i)) ∧
      ∀ ε > 0, ∃ N, ∀ iter ≥ N, ∀ fuel > 0, ∃ y : Fin n → ℝ, mtxEigenvalues fuel junk (mat A t) (vecOf x u) iter = ok (0, vec y u) ∧
        ∀ i, |y i - μ i| < ε := by
  obtain ⟨M, μ, hμ, hlim, -, hrun⟩ := eigenvalues_seq junk A x t u hn hsz hA hop h0 h1
  refine ⟨μ, hμ, fun ε hε => ?_⟩
  have h2 : ∀ᶠ k in atTop, ∀ i, |M k i i - μ i| < ε := by
    rw [eventually_all]
    intro i
    refine ((tendsto_pi_nhds.1 (tendsto_pi_nhds.1 hlim i) i).eventually (Metric.ball_mem_nhds _ hε)).mono fun k hk => ?_
    rw [Real.dist_eq, Matrix.diagonal_apply_eq] at hk
    exact hk
  obtain ⟨N, hN⟩ := eventually_atTop.1 h2
  exact ⟨N, fun iter hi fuel hf => ⟨_, hrun iter fuel hf, hN iter hi⟩⟩

/-! ## Matrices that need not be symmetric -/

/-- `X` holds the eigenvectors of `A` in its columns, `l` the eigenvalues. -/
structure Eigenbasis (A X : Matrix (Fin n) (Fin n) ℝ) (l : Fin n → ℝ) : Prop where
  det : X.det ≠ 0
  eig : A * X = X * Matrix.diagonal l

/-- C133. For every matrix with a real basis of eigenvectors, of which no two eigenvalues add up to zero (so none is zero), the matrices stored
by `zsl_mtx_qrd_iter` become upper triangular in the limit, and their diagonals converge to the eigenvalues with their multiplicities. -/
theorem mtx_qrd_iter_converges_general (junk : ℕ → XR) (A X : Matrix (Fin n) (Fin n) ℝ) (l : Fin n → ℝ) (B : Matrix (Fin n) (Fin n) XR)
    (t u : List XR) (hn : 0 < n) (hsz : n < SIZE_MOD) (hX : Eigenbasis A X l) (hl : ∀ i j, l i + l j ≠ 0) :
    ∃ σ : Equiv.Perm (Fin n), ∀ ε > 0, ∃ N, ∀ iter ≥ N, ∃ M : Matrix (Fin n) (Fin n) ℝ,
      mtxQrdIter junk (mat A t) (mtxOf B u) iter = ok (0, mat M u) ∧ (∀ i, |M i i - l (σ i)| < ε) ∧ ∀ i j, j < i → |M i j| < ε := by
  obtain ⟨M, hM0, hs, hrun⟩ := qrd_iter_seq junk A B t u hn hsz
  obtain ⟨σ, hd, ho⟩ := qr_tendsto_diag M hs X hX.det l hl (by rw [hM0]; exact hX.eig)
  refine ⟨σ, fun ε hε => ?_⟩
  have h1 : ∀ᶠ k in atTop, (∀ i, |M k i i - l (σ i)| < ε) ∧ ∀ i j, j < i → |M k i j| < ε := by
    refine Filter.Eventually.and ?_ ?_
    · rw [eventually_all]
      intro i
      exact ((hd i).eventually (Metric.ball_mem_nhds _ hε)).mono fun k hk => by rwa [Real.dist_eq] at hk
    · rw [eventually_all]
      intro i
      rw [eventually_all]
      intro j
      by_cases hij : j < i
      · exact ((ho i j hij).eventually (Metric.ball_mem_nhds _ hε)).mono fun k hk _ => by rwa [Real.dist_eq, sub_zero] at hk
      · exact Filter.Eventually.of_forall fun k h => absurd h hij
  obtain ⟨N, hN⟩ := eventually_atTop.1 h1
  exact ⟨N, fun iter hi => ⟨M iter, hrun iter, hN iter hi⟩⟩

/-- The balancing step and the reduction to Hessenberg form keep the eigenvalues. -/
theorem eigenbasis_reduce {A X Q H : Matrix (Fin n) (Fin n) ℝ} {l d : Fin n → ℝ} (hX : Eigenbasis A X l) (hd : ∀ i, 0 < d i)
    (hQ : Q * Q.transpose = 1) (hQ' : Q.transpose * Q = 1) (hmul : Q * H * Q.transpose = Matrix.of fun i j => A i j * d j / d i) :
    ∃ Y, Eigenbasis H Y l := by
  have hN : (Matrix.of fun i j => A i j * d j / d i) = Matrix.diagonal (fun i => (d i)⁻¹) * A * Matrix.diagonal d := by
    ext i j
    rw [Matrix.mul_diagonal, Matrix.diagonal_mul, Matrix.of_apply]
    field_simp
  have hdd : Matrix.diagonal d * Matrix.diagonal (fun i => (d i)⁻¹) = 1 := by
    rw [Matrix.diagonal_mul_diagonal, ← Matrix.diagonal_one]
    congr 1
    funext i
    exact mul_inv_cancel₀ (hd i).ne'
  have hH : H = Q.transpose * (Matrix.diagonal (fun i => (d i)⁻¹) * A * Matrix.diagonal d) * Q := by
    rw [← hN, ← hmul]
    simp only [← Matrix.mul_assoc]
    rw [hQ', Matrix.one_mul, Matrix.mul_assoc, hQ', Matrix.mul_one]
  refine ⟨Q.transpose * Matrix.diagonal (fun i => (d i)⁻¹) * X, ?_, ?_⟩
  · rw [Matrix.det_mul, Matrix.det_mul, Matrix.det_diagonal]
    refine mul_ne_zero (mul_ne_zero ?_ (Finset.prod_ne_zero_iff.2 fun i _ => inv_ne_zero (hd i).ne')) hX.det
    intro h0
    have := congrArg Matrix.det hQ
    rw [Matrix.det_mul, h0, mul_zero, Matrix.det_one] at this
    exact zero_ne_one this
  · calc H * (Q.transpose * Matrix.diagonal (fun i => (d i)⁻¹) * X)
        = Q.transpose * (Matrix.diagonal (fun i => (d i)⁻¹) * A * Matrix.diagonal d) * (Q * Q.transpose) * Matrix.diagonal (fun i => (d i)⁻¹) * X := by
          rw [hH]
          simp only [Matrix.mul_assoc]
      _ = Q.transpose * Matrix.diagonal (fun i => (d i)⁻¹) * A * (Matrix.diagonal d * Matrix.diagonal (fun i => (d i)⁻¹)) * X := by
          rw [hQ, Matrix.mul_one]
          simp only [Matrix.mul_assoc]
      _ = Q.transpose * Matrix.diagonal (fun i => (d i)⁻¹) * (A * X) := by
          rw [hdd, Matrix.mul_one]
          simp only [Matrix.mul_assoc]
      _ = _ := by
          rw [hX.eig]
          simp only [Matrix.mul_assoc]

/-- C133. The eigenvalue function, whatever its uninitialised locals hold, provided that it returns (for some iteration count). The matrix has a
real basis of eigenvectors and no two of its eigenvalues add up to zero; if it does not pass the symmetry test, no eigenvalue lies between
0 and 1e-6, which the function would replace by zero. Then it returns 0 for all large iteration counts and the stored values converge to
the eigenvalues with their multiplicities. -/
theorem mtx_eigenvalues_converge (fuel : ℕ) (junk : ℕ → XR) (A X : Matrix (Fin n) (Fin n) ℝ) (l : Fin n → ℝ) (x : Fin n → XR) (t u : List XR)
    (hn : 0 < n) (hsz : 2 * n < SIZE_MOD) (hX : Eigenbasis A X l) (hl : ∀ i j, l i + l j ≠ 0)
    (hz : (∀ i j, |A i j - A j i| < 1 / 1000000) ∨ ∀ i, l i < 0 ∨ 1 / 1000000 < l i)
    (hret : ∃ iter r, mtxEigenvalues fuel junk (mat A t) (vecOf x u) iter = ok r) :
    ∃ σ : Equiv.Perm (Fin n), ∀ ε > 0, ∃ N, ∀ iter ≥ N, ∃ y : Fin n → ℝ,
      mtxEigenvalues fuel junk (mat A t) (vecOf x u) iter = ok (0, vec y u) ∧ ∀ i, |y i - l (σ i)| < ε := by
  obtain ⟨iter0, r, hret⟩ := hret
  obtain ⟨U, hU⟩ := uninit_eq junk n n
  cases hb : mtxBalance fuel junk (mat A t) (Mtx.uninit junk n n) with
  | ub =>
    unfold mtxEigenvalues at hret
    rw [if_neg (by simp; omega)] at hret
    simp only [mat_rows] at hret
    rw [hb] at hret
    cases hret
  | ok bal =>
    obtain ⟨rc0, mb⟩ := bal
    have hb' := hb
    rw [hU] at hb'
    obtain ⟨_, d, hd, rfl⟩ := mtx_balance_correct fuel junk A U t [] rc0 mb hb'
    obtain ⟨Q, H, hqr, hQ, hQ', -, hmul⟩ := mtx_qrd_hess_correct junk (Matrix.of fun i j => A i j * d j / d i) U U [] [] [] hn hsz
    obtain ⟨Y, hY⟩ := eigenbasis_reduce hX hd hQ hQ' hmul
    obtain ⟨σ, hσ⟩ := mtx_qrd_iter_converges_general junk H Y l (Q.map XR.fin) [] [] hn (by omega) hY hl
    refine ⟨σ, fun ε hε => ?_⟩
    by_cases hsym : ∀ i j, |A i j - A j i| < 1 / 1000000
    · obtain ⟨N, hN⟩ := hσ ε hε
      refine ⟨N, fun iter hi => ?_⟩
      obtain ⟨M, hM, hMd, -⟩ := hN iter hi
      exact ⟨fun i => M i i, eig_sym_run fuel junk A _ x t u iter hn rc0 hb hsym U hU Q H M hqr hM, hMd⟩
    · have hz' := hz.resolve_left hsym
      -- keep clear of the interval that is replaced by zero
      obtain ⟨δ, hδ, hδ'⟩ : ∃ δ > 0, ∀ i, ∀ y : ℝ, |y - l (σ i)| < δ → tiny y = false := by
        have hex : ∀ i, ∃ δ > 0, ∀ y : ℝ, |y - l (σ i)| < δ → tiny y = false := by
          intro i
          rcases hz' (σ i) with h | h
          · refine ⟨-l (σ i), by linarith, fun y hy => ?_⟩
            unfold tiny
            rw [decide_eq_false_iff_not]
            rintro ⟨h1, -⟩
            have := (abs_lt.1 hy).2
            linarith
          · refine ⟨l (σ i) - 1 / 1000000, by linarith, fun y hy => ?_⟩
            unfold tiny
            rw [decide_eq_false_iff_not]
            rintro ⟨-, h1⟩
            have := (abs_lt.1 hy).1
            linarith
        choose δ hδ hδ' using hex
        have hne : (Finset.univ : Finset (Fin n)).Nonempty := ⟨⟨0, hn⟩, Finset.mem_univ _⟩
        refine ⟨Finset.univ.inf' hne δ, ?_, fun i y hy => hδ' i y (lt_of_lt_of_le hy (Finset.inf'_le _ (Finset.mem_univ i)))⟩
        rw [gt_iff_lt, Finset.lt_inf'_iff]
        exact fun i _ => hδ i
      obtain ⟨N, hN⟩ := hσ (min ε (min δ (1 / 1000000))) (lt_min hε (lt_min hδ (by norm_num)))
      refine ⟨N, fun iter hi => ?_⟩
      obtain ⟨M, hM, hMd, hMo⟩ := hN iter hi
      rw [← hU] at hqr
      have hrun := eig_asym fuel junk A _ H M Q x t u iter hn rc0 hb hqr hM
        (fun i j hij => lt_of_lt_of_le (hMo i j (Fin.lt_def.2 (by omega))) ((min_le_right _ _).trans (min_le_right _ _))) hsym
      refine ⟨fun i => M i i, ?_, fun i => lt_of_lt_of_le (hMd i) (min_le_left _ _)⟩
      rw [hrun]
      have ht : ∀ i, tiny (M i i) = false := fun i =>
        hδ' i _ (lt_of_lt_of_le (hMd i) ((min_le_right _ _).trans (min_le_left _ _)))
      have h1 : (List.ofFn fun i => M i i).filter (fun a => !tiny a) = List.ofFn fun i => M i i := by
        rw [List.filter_eq_self]
        intro a ha
        obtain ⟨i, rfl⟩ := (List.mem_ofFn).1 ha
        rw [ht i]
        rfl
      have h2 : (List.ofFn fun i => M i i).countP tiny = 0 := by
        rw [List.countP_eq_zero]
        intro a ha
        obtain ⟨i, rfl⟩ := (List.mem_ofFn).1 ha
        rw [ht i]
        simp
      rw [h1, h2]
      simp only [List.replicate_zero, List.append_nil, List.map_ofFn]
      rfl

/-- C133. In particular for every matrix with `n` different real eigenvalues of which no two are opposite and none lies between 0 and 1e-6, if the
uninitialised locals of the balancing step hold zero. -/
theorem mtx_eigenvalues_converge_distinct_partial (junk : ℕ → XR) (A : Matrix (Fin n) (Fin n) ℝ) (l : Fin n → ℝ) (x : Fin n → XR) (t u : List XR)
    (hn : 0 < n) (hsz : 2 * n < SIZE_MOD) (hA : A.charpoly = ∏ i, (Polynomial.X - Polynomial.C (l i))) (hinj : Function.Injective l)
    (hl : ∀ i j, l i ≠ -l j) (hz : ∀ i, l i < 0 ∨ 1 / 1000000 < l i) (h0 : junk 0 = XR.fin 0) (h1 : junk 1 = XR.fin 0) :
    ∃ F, ∀ fuel ≥ F, ∃ σ : Equiv.Perm (Fin n), ∀ ε > 0, ∃ N, ∀ iter ≥ N, ∃ y : Fin n → ℝ,
      mtxEigenvalues fuel junk (mat A t) (vecOf x u) iter = ok (0, vec y u) ∧ ∀ i, |y i - l (σ i)| < ε := by
  obtain ⟨F, hF⟩ := mtx_eigenvalues_returns_partial junk A x t u 0 hn (by omega) h0 h1
  obtain ⟨X, hX, hAX⟩ := diag_of_charpoly hinj hA
  refine ⟨F, fun fuel hf => ?_⟩
  obtain ⟨rc, v', h⟩ := hF fuel hf
  exact mtx_eigenvalues_converge fuel junk A X l x t u hn hsz ⟨hX, hAX⟩ (fun i j h => hl i j (by linarith)) (Or.inr hz) ⟨0, _, h⟩

/-- C133. And for every nonsingular symmetric matrix without opposite eigenvalues, whatever the locals hold, provided that the function returns. -/
theorem mtx_eigenvalues_converge_symm (fuel : ℕ) (junk : ℕ → XR) (A : Matrix (Fin n) (Fin n) ℝ) (x : Fin n → XR) (t u : List XR)
    (hn : 0 < n) (hsz : 2 * n < SIZE_MOD) (hA : A.transpose = A) (hop : NoOpposite A) (hdet : A.det ≠ 0)
    (hret : ∃ iter r, mtxEigenvalues fuel junk (mat A t) (vecOf x u) iter = ok r) :
    ∃ μ : Fin n → ℝ, A.charpoly = ∏ i, (Polynomial.X - Polynomial.C (μ i)) ∧
      ∀ ε > 0, ∃ N, ∀ iter ≥ N, ∃ y : Fin n → ℝ, mtxEigenvalues fuel junk (mat A t) (vecOf x u) iter = ok (0, vec y u) ∧
        ∀ i, |y i - μ i| < ε := by
  obtain ⟨X, l, hX, hAX⟩ := diag_of_symm hA
  have hchar := charpoly_of_diag hX hAX
  have hroot : ∀ i, A.charpoly.IsRoot (l i) := by
    intro i
    rw [Polynomial.IsRoot, hchar, Polynomial.eval_prod]
    exact Finset.prod_eq_zero (Finset.mem_univ i) (by simp)
  have hne : ∀ i, l i ≠ 0 := by
    intro i h0
    have h := hroot i
    rw [h0, Polynomial.IsRoot, Matrix.eval_charpoly] at h
    refine hdet ?_
    have : Matrix.scalar (Fin n) (0 : ℝ) - A = -A := by simp
    rw [this, Matrix.det_neg] at h
    exact (mul_eq_zero.1 h).resolve_left (pow_ne_zero _ (by norm_num))
  obtain ⟨σ, hσ⟩ := mtx_eigenvalues_converge fuel junk A X l x t u hn hsz ⟨hX, hAX⟩ (fun i j h => by
    have : l j = -l i := by linarith
    exact hop (l i) (hne i) (hroot i) (this ▸ hroot j)) (Or.inl fun i j => by
      rw [show A j i = A i j from congrFun (congrFun hA i) j, sub_self, abs_zero]
      norm_num) hret
  refine ⟨fun i => l (σ i), ?_, hσ⟩
  rw [hchar]
  exact (Equiv.prod_comp σ fun i => Polynomial.X - Polynomial.C (l i)).symm

/-- Non-vacuity: a matrix that is not symmetric, with the eigenvalues 3 and 1. -/
example (junk : ℕ → XR) (h0 : junk 0 = XR.fin 0) (h1 : junk 1 = XR.fin 0) :
    ∃ F, ∀ fuel ≥ F, ∃ σ : Equiv.Perm (Fin 2), ∀ ε > 0, ∃ N, ∀ iter ≥ N, ∃ y : Fin 2 → ℝ,
      mtxEigenvalues fuel junk (mat !![1, 0; 2, 3] []) (vecOf ![XR.nan, XR.nan] []) iter = ok (0, vec y []) ∧
        ∀ i, |y i - ![3, 1] (σ i)| < ε := by
  refine mtx_eigenvalues_converge_distinct_partial junk !![1, 0; 2, 3] ![3, 1] _ [] [] (by norm_num) (by rw [SIZE_MOD_eq]; norm_num) ?_ ?_ ?_ ?_ h0 h1
  · rw [Matrix.charpoly_fin_two, Fin.prod_univ_two]
    simp [Matrix.trace_fin_two, Matrix.det_fin_two]
    rw [show (Polynomial.C (3 : ℝ)) = 3 from map_ofNat Polynomial.C 3]
    ring
  · intro i j h
    fin_cases i <;> fin_cases j <;> first | rfl | (norm_num at h)
  · intro i j
    fin_cases i <;> fin_cases j <;> norm_num
  · intro i
    right
    fin_cases i <;> norm_num

/-- If the square of a symmetric matrix is a multiple of the identity, a QR step keeps the diagonal and the square. -/
theorem qrStep_stuck {A A' : Matrix (Fin n) (Fin n) ℝ} (h : QRStep A A') (hA : A.transpose = A) (c : ℝ)
    (hc : A * A = c • (1 : Matrix (Fin n) (Fin n) ℝ)) : A' * A' = c • (1 : Matrix (Fin n) (Fin n) ℝ) ∧ ∀ i, A' i i = A i i := by
  have hs := h.symm hA
  obtain ⟨Q, R, hQ, hQ', hR, h1, h2⟩ := h
  have e1 : A * A = R.transpose * R := by
    have : A * A = (Q * R).transpose * (Q * R) := by rw [h1, hA]
    rw [this, Matrix.transpose_mul, Matrix.mul_assoc, ← Matrix.mul_assoc Q.transpose, hQ', Matrix.one_mul]
  have e2 : A' * A' = R * R.transpose := by
    have : A' * A' = A' * A'.transpose := by rw [hs]
    rw [this, h2, Matrix.transpose_mul, Matrix.mul_assoc, ← Matrix.mul_assoc Q, hQ, Matrix.one_mul]
  have hR' : R = Q.transpose * A := by rw [← h1, ← Matrix.mul_assoc, hQ', Matrix.one_mul]
  have hsq : A' * A' = c • (1 : Matrix (Fin n) (Fin n) ℝ) := by
    rw [e2, hR', Matrix.transpose_mul, Matrix.transpose_transpose, hA, ← Matrix.mul_assoc, Matrix.mul_assoc Q.transpose, hc, Matrix.mul_smul,
      Matrix.mul_one, Matrix.smul_mul, hQ']
  have hoff : ∀ i l : Fin n, i ≠ l → R i l = 0 := by
    intro i l hil
    rcases lt_or_gt_of_ne hil with h | h
    · have hz := leadSum_step hR l.val
      rw [← e1, ← e2, hc, hsq] at hz
      have hz' : ∑ i : Fin n, ∑ m : Fin n, (if i.val < l.val ∧ l.val ≤ m.val then R i m ^ 2 else 0) = 0 := by linarith
      have hnn : ∀ i m : Fin n, 0 ≤ (if i.val < l.val ∧ l.val ≤ m.val then R i m ^ 2 else 0) := by
        intro i m
        split_ifs
        · exact sq_nonneg _
        · exact le_rfl
      have h3 := (Finset.sum_eq_zero_iff_of_nonneg fun i _ => Finset.sum_nonneg fun m _ => hnn i m).1 hz' i (Finset.mem_univ i)
      have h4 := (Finset.sum_eq_zero_iff_of_nonneg fun m _ => hnn i m).1 h3 l (Finset.mem_univ l)
      rw [if_pos ⟨h, le_rfl⟩] at h4
      exact pow_eq_zero_iff (two_ne_zero) |>.1 h4
    · exact hR i l h
  refine ⟨hsq, fun i => ?_⟩
  rw [h2, ← h1, Matrix.mul_apply, Matrix.mul_apply, Finset.sum_eq_single i, Finset.sum_eq_single i, mul_comm]
  · intro l _ hl
    rw [hoff l i hl, mul_zero]
  · simp
  · intro l _ hl
    rw [hoff i l (Ne.symm hl), zero_mul]
  · simp

/-- C133 fails with opposite eigenvalues: for every symmetric matrix whose square is a multiple of the identity the diagonal stored by
`zsl_mtx_qrd_iter` is the diagonal of the input, for every iteration count. -/
theorem mtx_qrd_iter_stuck (junk : ℕ → XR) (A : Matrix (Fin n) (Fin n) ℝ) (B : Matrix (Fin n) (Fin n) XR) (t u : List XR)
    (iter : ℕ) (hn : 0 < n) (hsz : n < SIZE_MOD) (hA : A.transpose = A) (c : ℝ) (hc : A * A = c • (1 : Matrix (Fin n) (Fin n) ℝ)) :
    ∃ M : Matrix (Fin n) (Fin n) ℝ, mtxQrdIter junk (mat A t) (mtxOf B u) iter = ok (0, mat M u) ∧ ∀ i, M i i = A i i := by
  obtain ⟨M, hM0, hs, hrun⟩ := qrd_iter_seq junk A B t u hn hsz
  have hsym := iter_symm M hs (by rw [hM0, hA])
  have key : ∀ k, M k * M k = c • (1 : Matrix (Fin n) (Fin n) ℝ) ∧ ∀ i, M k i i = A i i := by
    intro k
    induction k with
    | zero => rw [hM0]; exact ⟨hc, fun _ => rfl⟩
    | succ k ih =>
      obtain ⟨h1, h2⟩ := qrStep_stuck (hs k) (hsym k) c ih.1
      exact ⟨h1, fun i => (h2 i).trans (ih.2 i)⟩
  exact ⟨M iter, hrun iter, (key iter).2⟩

/-- C133 fails with opposite eigenvalues: for the matrix with rows (0, 1) and (1, 0), whose eigenvalues are 1 and -1, `zsl_mtx_eigenvalues`
reports success and stores (0, 0), for every iteration count. -/
theorem mtx_eigenvalues_stuck (junk : ℕ → XR) (x : Fin 2 → XR) (t u : List XR) (iter fuel : ℕ) (h0 : junk 0 = XR.fin 0) (h1 : junk 1 = XR.fin 0)
    (hf : 0 < fuel) : mtxEigenvalues fuel junk (mat !![0, 1; 1, 0] t) (vecOf x u) iter = ok (0, vec ![0, 0] u) ∧
      (!![0, 1; 1, 0] : Matrix (Fin 2) (Fin 2) ℝ).charpoly = (Polynomial.X - Polynomial.C 1) * (Polynomial.X - Polynomial.C (-1)) := by
  constructor
  · obtain ⟨U, hU⟩ := uninit_eq junk 2 2
    have hT : (!![0, 1; 1, 0] : Matrix (Fin 2) (Fin 2) ℝ).transpose = !![0, 1; 1, 0] := by
      ext i j
      fin_cases i <;> fin_cases j <;> rfl
    have hqr := mtx_qrd_hess_fixed junk !![0, 1; 1, 0] U U [] [] [] (by norm_num) (by rw [SIZE_MOD_eq]; norm_num) (fun i j h => by omega)
    obtain ⟨M, hM, hd⟩ := mtx_qrd_iter_stuck junk !![0, 1; 1, 0] ((1 : Matrix (Fin 2) (Fin 2) ℝ).map XR.fin) [] [] iter (by norm_num)
      (by rw [SIZE_MOD_eq]; norm_num) hT 1 (by ext i j; fin_cases i <;> fin_cases j <;> simp)
    have := eig_sym_run fuel junk !![0, 1; 1, 0] !![0, 1; 1, 0] x t u iter (by norm_num) 0 (by
      rw [hU]
      exact mtx_balance_symm_partial fuel junk _ U t [] hT h0 h1 hf) (fun i j => by
        rw [show (!![0, 1; 1, 0] : Matrix (Fin 2) (Fin 2) ℝ) j i = !![0, 1; 1, 0] i j from congrFun (congrFun hT i) j, sub_self, abs_zero]
        norm_num) U hU 1 !![0, 1; 1, 0] M hqr hM
    rw [this]
    congr 3
    funext i
    rw [hd i]
    fin_cases i <;> rfl
  · rw [Matrix.charpoly_fin_two]
    simp [Matrix.trace_fin_two]
    ring

/-- Non-vacuity: a matrix with a repeated eigenvalue and no opposite ones. -/
example (junk : ℕ → XR) (h0 : junk 0 = XR.fin 0) (h1 : junk 1 = XR.fin 0) : ∃ μ : Fin 3 → ℝ,
    (!![2, 1, 1; 1, 2, 1; 1, 1, 2] : Matrix (Fin 3) (Fin 3) ℝ).charpoly = ∏ i, (Polynomial.X - Polynomial.C (μ i)) ∧
      ∀ ε > 0, ∃ N, ∀ iter ≥ N, ∀ fuel > 0, ∃ y : Fin 3 → ℝ,
        mtxEigenvalues fuel junk (mat !![2, 1, 1; 1, 2, 1; 1, 1, 2] []) (vecOf (fun _ : Fin 3 => XR.nan) []) iter = ok (0, vec y []) ∧
          ∀ i, |y i - μ i| < ε := by
  refine mtx_eigenvalues_converge_partial junk _ _ [] [] (by norm_num) (by rw [SIZE_MOD_eq]; norm_num) ?_ ?_ h0 h1
  · ext i j
    fin_cases i <;> fin_cases j <;> rfl
  · intro x hx hr hr'
    have e : ∀ y : ℝ, (!![2, 1, 1; 1, 2, 1; 1, 1, 2] : Matrix (Fin 3) (Fin 3) ℝ).charpoly.eval y = (y - 1) ^ 2 * (y - 4) := by
      intro y
      rw [Matrix.eval_charpoly, Matrix.det_fin_three]
      simp
      ring
    rw [Polynomial.IsRoot, e] at hr hr'
    have a1 : x = 1 ∨ x = 4 := by
      rcases mul_eq_zero.1 hr with h | h
      · left; linarith [pow_eq_zero_iff (two_ne_zero) |>.1 h]
      · right; linarith
    rcases a1 with rfl | rfl <;> norm_num at hr'

end Verif
