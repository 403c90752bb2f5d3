import Verif.Lemmas.SvdRun
import Mathlib.Analysis.Matrix.Spectrum
import Mathlib.LinearAlgebra.Matrix.Rank
import Mathlib.LinearAlgebra.Matrix.Charpoly.Basic

/-!
# Singular value decomposition (C120)
-/

set_option linter.unusedSectionVars false

namespace Verif

open Out Matrix

variable {m n : ℕ}

/-- The eigenvalue function returns for the matrix `S` its eigenvalues `k`, with multiplicity and in descending order; they are not negative,
different ones (and zero) are at least `1e-6` apart, and the eliminations for the eigenvectors meet no tiny number. -/
structure Spectrum (fuel : ℕ) (junk : ℕ → XR) (S : Matrix (Fin n) (Fin n) ℝ) (iter : ℕ) (k : Fin n → ℝ) : Prop where
  run : ∃ rc, mtxEigenvalues fuel junk (mat S []) (Vec.uninit junk n) iter = ok (rc, vec k [])
  eig : S.charpoly = ∏ i, (Polynomial.X - Polynomial.C (k i))
  desc : Antitone k
  zero : ∀ i, k i = 0 ∨ 1 / 1000000 ≤ k i
  sep : ∀ i j, k j = k i ∨ 1 / 1000000 ≤ |k j - k i|
  noTiny : ∀ i, NoTiny (S - k i • 1)

theorem Spectrum.nonneg {fuel : ℕ} {junk : ℕ → XR} {S : Matrix (Fin n) (Fin n) ℝ} {iter : ℕ} {k : Fin n → ℝ}
    (h : Spectrum fuel junk S iter k) (i : Fin n) : 0 ≤ k i := by
  rcases h.zero i with h | h
  · rw [h]
  · linarith

theorem charpoly_root {S : Matrix (Fin n) (Fin n) ℝ} {k : Fin n → ℝ} (h : S.charpoly = ∏ i, (Polynomial.X - Polynomial.C (k i)))
    {x : Fin n → ℝ} {mu : ℝ} (hx : x ≠ 0) (hS : S *ᵥ x = mu • x) : ∃ i, mu = k i := by
  have h1 : (Matrix.scalar (Fin n) mu - S).det = 0 := by
    rw [← Matrix.exists_mulVec_eq_zero_iff]
    refine ⟨x, hx, ?_⟩
    rw [sub_mulVec, hS]
    ext i
    simp [Matrix.scalar_apply]
  rw [← Matrix.eval_charpoly, h, Polynomial.eval_prod, Finset.prod_eq_zero_iff] at h1
  obtain ⟨i, -, hi⟩ := h1
  refine ⟨i, ?_⟩
  simpa [sub_eq_zero] using hi

theorem antitone_unique {k l : Fin n → ℝ} (hk : Antitone k) (hl : Antitone l)
    (h : (∏ i, (Polynomial.X - Polynomial.C (k i)) : Polynomial ℝ) = ∏ i, (Polynomial.X - Polynomial.C (l i))) : k = l := by
  have hroots : ∀ f : Fin n → ℝ, (∏ i, (Polynomial.X - Polynomial.C (f i)) : Polynomial ℝ).roots = ↑(List.ofFn f) := by
    intro f
    rw [Finset.prod_eq_multiset_prod]
    refine (congrArg (fun s => Polynomial.roots (Multiset.prod s)) (Multiset.map_map (fun a => Polynomial.X - Polynomial.C a) f _).symm).trans ?_
    rw [Polynomial.roots_multiset_prod_X_sub_C]
    rw [← Fin.univ_val_map]
  have h1 := hroots k
  rw [h, hroots l, Multiset.coe_eq_coe] at h1
  have h2 := h1.eq_of_sortedGE (List.sortedGE_ofFn_iff.2 hl) (List.sortedGE_ofFn_iff.2 hk)
  exact (List.ofFn_injective h2).symm

/-- The eigenvectors of a symmetric matrix with such a spectrum. -/
theorem spectrum_vectors {fuel : ℕ} {junk : ℕ → XR} {S : Matrix (Fin n) (Fin n) ℝ} {iter : ℕ} {k : Fin n → ℝ}
    (h : Spectrum fuel junk S iter k) (hS : S.transpose = S) (hn : 0 < n) (B : Matrix (Fin n) (Fin n) XR) (u : List XR) :
    ∃ V : Matrix (Fin n) (Fin n) ℝ, mtxEigenvectors fuel junk (mat S []) (mtxOf B u) iter true = ok (0, mat V u) ∧
      S * V = V * Matrix.diagonal k ∧ V.transpose * V = 1 := by
  obtain ⟨rc, hrun⟩ := h.run
  have hherm : S.IsHermitian := by
    rw [Matrix.IsHermitian, Matrix.conjTranspose_eq_transpose_of_trivial]
    exact hS
  obtain ⟨lam, V, h1, h2, h3, h4, h5, h6⟩ := mtx_eigenvectors_complete fuel junk S B [] u iter true hn rc k hrun h.noTiny
    (fun i => (h.zero i).imp id fun h => le_trans h (le_abs_self _)) h.sep (by
    intro x
    have hx : x ∈ Submodule.span ℝ (Set.range fun j => (hherm.eigenvectorBasis j).ofLp) := by
      have h7 := hherm.eigenvectorBasis.sum_repr (WithLp.toLp 2 x)
      have h8 := congrArg WithLp.ofLp h7
      rw [WithLp.ofLp_sum] at h8
      simp only [WithLp.ofLp_smul] at h8
      rw [← h8]
      exact Submodule.sum_mem _ fun j _ => Submodule.smul_mem _ _ (Submodule.subset_span ⟨j, rfl⟩)
    refine Submodule.span_mono ?_ hx
    rintro y ⟨j, rfl⟩
    have h7 := hherm.mulVec_eigenvectorBasis j
    obtain ⟨i, hi⟩ := charpoly_root h.eig (fun h0 => hherm.eigenvectorBasis.toBasis.ne_zero j (by
      rw [OrthonormalBasis.coe_toBasis]
      ext a
      exact congrFun h0 a)) h7
    exact ⟨i, by rw [← hi]; exact h7⟩)
  have hlam : lam = k := by
    refine antitone_unique ?_ h.desc ?_
    · intro j j' hjj
      rcases eq_or_lt_of_le hjj with rfl | hlt
      · exact le_rfl
      by_cases hne : lam j = lam j'
      · rw [hne]
      rcases (h6 j j' hlt hne).2 with h7 | ⟨i, hi, hi2⟩
      · rw [h7]
        obtain ⟨i, hi⟩ := h4 j
        rw [hi]
        exact h.nonneg i
      · obtain ⟨i', hi'⟩ := h4 j'
        rw [← hi, hi']
        exact h.desc (le_of_lt (hi2 i' hi'.symm))
    · rw [← h.eig, ← Matrix.charpoly_diagonal]
      obtain ⟨Vu, hVu⟩ := h3
      have : S = V * Matrix.diagonal lam * V⁻¹ := by
        rw [← h2, Matrix.mul_assoc, Matrix.mul_nonsing_inv _ ((Matrix.isUnit_iff_isUnit_det _).1 ⟨Vu, hVu⟩), Matrix.mul_one]
      rw [this, ← hVu, Matrix.charpoly_units_conj]
  subst hlam
  exact ⟨V, h1, h2, h5 rfl hS⟩

/-- A descending family has its nonzero members first. -/
theorem antitone_nonzero {k : Fin n → ℝ} (hk : Antitone k) (h0 : ∀ i, 0 ≤ k i) (r : ℕ) (hr : Fintype.card {i // k i ≠ 0} = r) (i : Fin n) :
    k i ≠ 0 ↔ i.val < r := by
  have hset : (Finset.univ.filter fun i => k i ≠ 0).card = r := by
    rw [← hr, Fintype.card_subtype]
  constructor
  · intro hi
    have hsub : (Finset.univ.filter fun j : Fin n => j.val ≤ i.val) ⊆ Finset.univ.filter fun i => k i ≠ 0 := by
      intro j hj
      simp only [Finset.mem_filter, Finset.mem_univ, true_and] at hj ⊢
      have h1 := hk (Fin.le_def.2 hj)
      have h2 := lt_of_le_of_ne (h0 i) (Ne.symm hi)
      exact ne_of_gt (lt_of_lt_of_le h2 h1)
    have := Finset.card_le_card hsub
    rw [hset] at this
    have hcard : (Finset.univ.filter fun j : Fin n => j.val ≤ i.val).card = i.val + 1 := by
      rw [show (Finset.univ.filter fun j : Fin n => j.val ≤ i.val) = Finset.Iic i by
        ext j
        simp, Fin.card_Iic]
    omega
  · intro hi h
    have hsub : (Finset.univ.filter fun i => k i ≠ 0) ⊆ Finset.univ.filter fun j : Fin n => j.val < i.val := by
      intro j hj
      simp only [Finset.mem_filter, Finset.mem_univ, true_and] at hj ⊢
      by_contra hcon
      have h1 := hk (Fin.le_def.2 (not_lt.1 hcon))
      rw [h] at h1
      exact hj (le_antisymm h1 (h0 j))
    have := Finset.card_le_card hsub
    rw [hset] at this
    have hcard : (Finset.univ.filter fun j : Fin n => j.val < i.val).card = i.val := by
      rw [show (Finset.univ.filter fun j : Fin n => j.val < i.val) = Finset.Iio i by
        ext j
        simp, Fin.card_Iio]
    omega

theorem rank_spectrum {S V : Matrix (Fin n) (Fin n) ℝ} {k : Fin n → ℝ} (h : S * V = V * Matrix.diagonal k) (hV : V.transpose * V = 1) :
    S.rank = Fintype.card {i // k i ≠ 0} := by
  classical
  have hdet : IsUnit V.det := by
    rw [← Matrix.isUnit_iff_isUnit_det]
    exact ⟨⟨V, V.transpose, mul_eq_one_comm.1 hV, hV⟩, rfl⟩
  rw [← Matrix.rank_mul_eq_left_of_isUnit_det V S hdet, h, Matrix.rank_mul_eq_right_of_isUnit_det V _ hdet, Matrix.rank_diagonal]

/-- C120. The singular value decomposition of a matrix with at least as many rows as columns, under the assumption that the eigenvalue
function returned the eigenvalues of `Aᵀ A` and `A Aᵀ` in descending order (`Spectrum`): `U` and `V` are orthogonal, the diagonal of `E`
are the square roots of the eigenvalues of `Aᵀ A`, and `A = U E Vᵀ`. Full and deficient rank are both covered. -/
theorem mtx_svd_correct (fuel : ℕ) (junk : ℕ → XR) (A : Matrix (Fin m) (Fin n) ℝ) (t u e v : List XR) (U0 : Matrix (Fin m) (Fin m) XR)
    (E0 : Matrix (Fin m) (Fin n) XR) (V0 : Matrix (Fin n) (Fin n) XR) (iter : ℕ) (hn : 0 < n) (hnm : n ≤ m)
    (k : Fin n → ℝ) (l : Fin m → ℝ) (hk : Spectrum fuel junk (A.transpose * A) iter k) (hl : Spectrum fuel junk (A * A.transpose) iter l) :
    ∃ (U : Matrix (Fin m) (Fin m) ℝ) (E : Matrix (Fin m) (Fin n) ℝ) (V : Matrix (Fin n) (Fin n) ℝ),
      mtxSvd fuel junk (mat A t) (mtxOf U0 u) (mtxOf E0 e) (mtxOf V0 v) iter = ok (0, mat U u, mat E e, mat V v) ∧
      U.transpose * U = 1 ∧ V.transpose * V = 1 ∧ (∀ a b, E a b = if a.val = b.val then Real.sqrt (k b) else 0) ∧
      A = U * E * V.transpose := by
  classical
  have hm : 0 < m := by omega
  obtain ⟨V, hV, hVe, hVo⟩ := spectrum_vectors hk (by rw [transpose_mul, transpose_transpose]) hn V0 v
  obtain ⟨X, hX⟩ := uninit_eq junk m m
  obtain ⟨W, hW, hWe, hWo⟩ := spectrum_vectors hl (by rw [transpose_mul, transpose_transpose]) hm X []
  rw [← hX] at hW
  obtain ⟨rck, hrun⟩ := hk.run
  have hres := svd_run fuel junk A t u e v U0 E0 V0 iter hn hnm rck 0 0 k V W hk.nonneg hrun hV hW
  -- the rank
  set r := svdRank k with hrdef
  have hsmall : ∀ i, SigSmall k i ↔ k i = 0 := by
    intro i
    unfold SigSmall
    constructor
    · intro h
      rcases hk.zero i with h1 | h1
      · exact h1
      · exfalso
        have h2 : Real.sqrt ((1 / 1000000) ^ 2) ≤ Real.sqrt (k i) := Real.sqrt_le_sqrt (by norm_num; linarith)
        rw [Real.sqrt_sq (by norm_num)] at h2
        linarith
    · intro h
      rw [h, Real.sqrt_zero]
      norm_num
  have hrcard : Fintype.card {i // k i ≠ 0} = r := by
    rw [hrdef, svdRank, Fintype.card_subtype]
    have h1 := Finset.card_filter_add_card_filter_not (s := (Finset.univ : Finset (Fin n))) (fun i => k i = 0)
    have h2 : (Finset.univ.filter fun i => SigSmall k i) = Finset.univ.filter fun i => k i = 0 := by
      ext i
      simp [hsmall]
    rw [h2]
    simp only [Finset.card_univ, Fintype.card_fin] at h1
    simp only [ne_eq]
    omega
  have hrcard' : Fintype.card {i // l i ≠ 0} = r := by
    rw [← rank_spectrum hWe hWo, ← hrcard, ← rank_spectrum hVe hVo, rank_self_mul_transpose, rank_transpose_mul_self]
  have hkr := antitone_nonzero hk.desc hk.nonneg r hrcard
  have hlr := antitone_nonzero hl.desc hl.nonneg r hrcard'
  have hrn : r ≤ n := svdRank_le k
  -- the final matrix
  set U : Matrix (Fin m) (Fin m) ℝ := Matrix.of fun a j => if h : j.val < r then (A * V) a ⟨j, by omega⟩ / Real.sqrt (k ⟨j, by omega⟩)
    else W a j with hU
  have hUeq : svdU A V W k U0 = U.map XR.fin := by
    ext a j
    rw [hU, svdU, Matrix.of_apply, Matrix.map_apply, Matrix.of_apply]
    by_cases hj : j.val < r
    · rw [if_neg (by omega), dif_pos hj, svdCols, Matrix.of_apply, dif_pos (by omega), if_pos ⟨by omega, by
        rw [hsmall]
        exact (hkr _).2 hj⟩]
    · rw [if_pos (by omega), dif_neg hj]
  rw [hUeq] at hres
  have hAAV : ∀ j, A.transpose *ᵥ (A *ᵥ V.col j) = k j • V.col j := by
    intro j
    rw [mulVec_mulVec]
    ext i
    have := congrFun (congrFun hVe i) j
    rw [Matrix.mul_diagonal] at this
    simpa [Matrix.mulVec, dotProduct, Matrix.mul_apply, mul_comm] using this
  have hAAW : ∀ j, A *ᵥ (A.transpose *ᵥ W.col j) = l j • W.col j := by
    intro j
    rw [mulVec_mulVec]
    ext i
    have := congrFun (congrFun hWe i) j
    rw [Matrix.mul_diagonal] at this
    simpa [Matrix.mulVec, dotProduct, Matrix.mul_apply, mul_comm] using this
  have hVd : ∀ i j, V.col i ⬝ᵥ V.col j = if i = j then 1 else 0 := by
    intro i j
    have := congrFun (congrFun hVo i) j
    rw [Matrix.one_apply] at this
    exact this
  have hWd : ∀ i j, W.col i ⬝ᵥ W.col j = if i = j then 1 else 0 := by
    intro i j
    have := congrFun (congrFun hWo i) j
    rw [Matrix.one_apply] at this
    exact this
  have hAVd : ∀ i j, (A *ᵥ V.col i) ⬝ᵥ (A *ᵥ V.col j) = if i = j then k j else 0 := by
    intro i j
    rw [← Matrix.vecMul_transpose, ← Matrix.dotProduct_mulVec, hAAV, dotProduct_smul, hVd]
    split_ifs <;> simp
  have hAV0 : ∀ j, k j = 0 → A *ᵥ V.col j = 0 := by
    intro j hj
    have := hAVd j j
    rw [if_pos rfl, hj] at this
    exact dotProduct_self_eq_zero.1 this
  have hAW0 : ∀ j, l j = 0 → A.transpose *ᵥ W.col j = 0 := by
    intro j hj
    refine dotProduct_self_eq_zero.1 ?_
    rw [Matrix.mulVec_transpose, ← Matrix.dotProduct_mulVec, ← Matrix.mulVec_transpose, hAAW, hj, zero_smul, dotProduct_zero]
  have hUcol1 : ∀ j : Fin m, ∀ h : j.val < r, U.col j = (1 / Real.sqrt (k ⟨j, by omega⟩)) • (A *ᵥ V.col ⟨j, by omega⟩) := by
    intro j h
    ext a
    show U a j = _
    rw [hU, Matrix.of_apply, dif_pos h, Pi.smul_apply, smul_eq_mul, div_eq_mul_one_div, mul_comm]
    rfl
  have hUcol2 : ∀ j : Fin m, ¬j.val < r → U.col j = W.col j := by
    intro j h
    ext a
    show U a j = _
    rw [hU, Matrix.of_apply, dif_neg h]
    rfl
  refine ⟨U, svdSigma m k, V, hres, ?_, hVo, fun a b => rfl, ?_⟩
  · ext i j
    rw [Matrix.one_apply]
    show U.col i ⬝ᵥ U.col j = _
    have hcross : ∀ (i : Fin n) (j : Fin m), ¬j.val < r → (A *ᵥ V.col i) ⬝ᵥ W.col j = 0 := by
      intro i j hj
      have hl0 : l j = 0 := by
        by_contra h
        exact hj ((hlr j).1 h)
      rw [← Matrix.vecMul_transpose, ← Matrix.dotProduct_mulVec, hAW0 j hl0, dotProduct_zero]
    by_cases hi : i.val < r <;> by_cases hj : j.val < r
    · rw [hUcol1 i hi, hUcol1 j hj, smul_dotProduct, dotProduct_smul, hAVd]
      by_cases hij : i = j
      · subst hij
        rw [if_pos rfl, if_pos rfl]
        have hpos : 0 < k ⟨i, by omega⟩ := lt_of_le_of_ne (hk.nonneg _) (Ne.symm ((hkr _).2 hi))
        have hs := Real.mul_self_sqrt (le_of_lt hpos)
        have hs0 := (Real.sqrt_pos.2 hpos).ne'
        simp only [smul_eq_mul]
        field_simp
        rw [Real.sq_sqrt (le_of_lt hpos)]
      · rw [if_neg (by simpa [Fin.ext_iff] using fun h => hij (Fin.ext h)), if_neg hij]
        simp
    · rw [hUcol1 i hi, hUcol2 j hj, smul_dotProduct, hcross _ _ hj, if_neg (by rintro rfl; exact hj hi), smul_zero]
    · rw [hUcol2 i hi, hUcol1 j hj, dotProduct_smul, dotProduct_comm, hcross _ _ hi, if_neg (by rintro rfl; exact hi hj), smul_zero]
    · rw [hUcol2 i hi, hUcol2 j hj, hWd]
  · have hAV : A * V = U * svdSigma m k := by
      ext a j
      rw [Matrix.mul_apply (M := U), Finset.sum_eq_single (⟨j.val, by omega⟩ : Fin m)]
      · by_cases hj : j.val < r
        · have h0 : Real.sqrt (k j) ≠ 0 := by
            rw [Real.sqrt_ne_zero (hk.nonneg j)]
            exact (hkr j).2 hj
          rw [hU, Matrix.of_apply, dif_pos hj, svdSigma, Matrix.of_apply, if_pos rfl]
          simp only [Fin.eta]
          rw [div_mul_cancel₀ _ h0]
        · have h0 : k j = 0 := by
            by_contra h
            exact hj ((hkr j).1 h)
          rw [svdSigma, Matrix.of_apply, if_pos rfl, h0, Real.sqrt_zero, mul_zero]
          exact congrFun (hAV0 j h0) a
      · intro b _ hb
        rw [svdSigma, Matrix.of_apply, if_neg (fun h => hb (Fin.ext h)), mul_zero]
      · simp
    rw [← hAV, Matrix.mul_assoc, mul_eq_one_comm.1 hVo, Matrix.mul_one]

end Verif
