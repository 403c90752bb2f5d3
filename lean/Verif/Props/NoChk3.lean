import Verif.Props.NoChk2
import Verif.Props.Svd3

/-!
# Builds without bounds checks: the decompositions on matrices with known spectra

The condition of `nochk_mtx_svd_partial` and `nochk_mtx_pinv_partial` holds whenever the eigenvalue function finds the spectra of the two
products, so that the correctness theorems of the singular value decomposition and of the pseudoinverse carry over.
-/

set_option linter.unusedSectionVars false

namespace Verif

open NoChkL Out Matrix

variable {m n : ℕ}

/-- With known spectra both calls of the eigenvector function find full sets. -/
theorem fullEig_of_spectrum {fuel : ℕ} {junk : ℕ → XR} {A : Matrix (Fin m) (Fin n) ℝ} {x : List XR} {iter : ℕ} (hn : 0 < n) (hm : 0 < m)
    {k : Fin n → ℝ} {l : Fin m → ℝ} (hk : Spectrum fuel junk (A.transpose * A) iter k) (hl : Spectrum fuel junk (A * A.transpose) iter l)
    (V0 : Matrix (Fin n) (Fin n) XR) (v : List XR) (t a b : Mtx XR)
    (h1 : mtxTrans junk (mat A x) (Mtx.uninit junk n m) = ok (0, t))
    (h2 : mtxMult (mat A x) t (Mtx.uninit junk m m) = ok (0, a))
    (h3 : mtxMult t (mat A x) (Mtx.uninit junk n n) = ok (0, b)) :
    FullEig fuel junk b (mtxOf V0 v) iter ∧ FullEig fuel junk a (Mtx.uninit junk m m) iter := by
  obtain ⟨T0, hT0⟩ := uninit_eq junk n m
  obtain ⟨P0, hP0⟩ := uninit_eq junk m m
  obtain ⟨Q0, hQ0⟩ := uninit_eq junk n n
  rw [hT0, mtx_trans_real _ _ _ _ _ hn] at h1
  have e1 : t = mat A.transpose [] := by
    injection h1 with h1
    exact (congrArg Prod.snd h1).symm
  subst e1
  rw [hP0, mtx_mult_correct] at h2
  rw [hQ0, mtx_mult_correct] at h3
  have e2 : a = mat (A * A.transpose) [] := by
    injection h2 with h2
    exact (congrArg Prod.snd h2).symm
  have e3 : b = mat (A.transpose * A) [] := by
    injection h3 with h3
    exact (congrArg Prod.snd h3).symm
  subst e2 e3
  obtain ⟨V, hV, -, -⟩ := spectrum_vectors hk (by rw [transpose_mul, transpose_transpose]) hn V0 v
  obtain ⟨W, hW, -, -⟩ := spectrum_vectors hl (by rw [transpose_mul, transpose_transpose]) hm P0 []
  constructor
  · intro r hr
    rw [hV] at hr
    injection hr with hr
    rw [← hr]
  · intro r hr
    rw [hP0, hW] at hr
    injection hr with hr
    rw [← hr]

/-- C147, C120. The singular value decomposition is correct without bounds checks too, under the assumptions of `mtx_svd_correct`. -/
theorem nochk_mtx_svd_correct (fuel : ℕ) (junk : ℕ → XR) (A : Matrix (Fin m) (Fin n) ℝ) (t u e v : List XR) (U0 : Matrix (Fin m) (Fin m) XR)
    (E0 : Matrix (Fin m) (Fin n) XR) (V0 : Matrix (Fin n) (Fin n) XR) (iter : ℕ) (hn : 0 < n) (hnm : n ≤ m)
    (k : Fin n → ℝ) (l : Fin m → ℝ) (hk : Spectrum fuel junk (A.transpose * A) iter k) (hl : Spectrum fuel junk (A * A.transpose) iter l) :
    ∃ (U : Matrix (Fin m) (Fin m) ℝ) (E : Matrix (Fin m) (Fin n) ℝ) (V : Matrix (Fin n) (Fin n) ℝ),
      NoChk.mtxSvd fuel junk (mat A t) (mtxOf U0 u) (mtxOf E0 e) (mtxOf V0 v) iter = ok (0, mat U u, mat E e, mat V v) ∧
      U.transpose * U = 1 ∧ V.transpose * V = 1 ∧ (∀ a b, E a b = if a.val = b.val then Real.sqrt (k b) else 0) ∧
      A = U * E * V.transpose := by
  obtain ⟨U, E, V, h, hrest⟩ := mtx_svd_correct fuel junk A t u e v U0 E0 V0 iter hn hnm k l hk hl
  refine ⟨U, E, V, ?_, hrest⟩
  refine nochk_mtx_svd_partial fuel junk (mat A t) (mtxOf U0 u) (mtxOf E0 e) (mtxOf V0 v) iter ⟨rfl, rfl⟩ ⟨rfl, rfl⟩ ?_ _ h
  intro t' a b h1 h2 h3
  exact fullEig_of_spectrum hn (by omega) hk hl V0 v t' a b h1 h2 h3

/-- C147, C121. The pseudoinverse is correct without bounds checks too, under the assumptions of `mtx_pinv_correct_partial`: full column rank. -/
theorem nochk_mtx_pinv_correct_partial (fuel : ℕ) (junk : ℕ → XR) (A : Matrix (Fin m) (Fin n) ℝ) (t p : List XR) (P0 : Matrix (Fin n) (Fin m) XR)
    (iter : ℕ) (hn : 0 < n) (hnm : n ≤ m) (k : Fin n → ℝ) (l : Fin m → ℝ) (hk : Spectrum fuel junk (A.transpose * A) iter k)
    (hl : Spectrum fuel junk (A * A.transpose) iter l) (hfull : ∀ i, k i ≠ 0) :
    ∃ P : Matrix (Fin n) (Fin m) ℝ, NoChk.mtxPinv fuel junk (mat A t) (mtxOf P0 p) iter = ok (0, mat P p) ∧
      P * A = 1 ∧ (A * P).transpose = A * P ∧ P = (A.transpose * A)⁻¹ * A.transpose := by
  obtain ⟨P, h, hrest⟩ := mtx_pinv_correct_partial fuel junk A t p P0 iter hn hnm k l hk hl hfull
  refine ⟨P, ?_, hrest⟩
  refine nochk_mtx_pinv_partial fuel junk (mat A t) (mtxOf P0 p) iter ⟨rfl, rfl⟩ ?_ _ h
  intro t' a b h1 h2 h3
  obtain ⟨V0, hV0⟩ := uninit_eq junk n n
  have := fullEig_of_spectrum hn (by omega) hk hl V0 [] t' a b h1 h2 h3
  rw [← hV0] at this
  exact this

/-- Non-vacuity: a 4x3 diagonal matrix of rank 2 with a negative entry, in a build without checks. -/
example (junk : ℕ → XR) (h0 : junk 0 = XR.fin 0) (h1 : junk 1 = XR.fin 0) :
    ∃ (fuel : ℕ) (U : Matrix (Fin 4) (Fin 4) ℝ) (E : Matrix (Fin 4) (Fin 3) ℝ) (V : Matrix (Fin 3) (Fin 3) ℝ),
      NoChk.mtxSvd fuel junk (mat (rectDiag 4 ![-3, 2, 0]) []) (mat (0 : Matrix (Fin 4) (Fin 4) ℝ) []) (mat (0 : Matrix (Fin 4) (Fin 3) ℝ) [])
        (mat (0 : Matrix (Fin 3) (Fin 3) ℝ) []) 5 = ok (0, mat U [], mat E [], mat V []) ∧
      rectDiag 4 ![-3, 2, 0] = U * E * V.transpose := by
  obtain ⟨F, hF⟩ := spectrum_rectDiag (m := 4) junk ![-3, 2, 0] 5 (by norm_num) (by norm_num)
    (by rw [SIZE_MOD_eq]; norm_num) h0 h1 (by
      intro i j hij
      revert hij
      fin_cases i <;> fin_cases j <;> (norm_num; try decide)) (by
      intro i
      fin_cases i <;> norm_num) (by
      intro i j
      fin_cases i <;> fin_cases j <;> norm_num)
  obtain ⟨hk, l, hl⟩ := hF F le_rfl
  obtain ⟨U, E, V, h, -, -, -, h3⟩ := nochk_mtx_svd_correct F junk (rectDiag 4 ![-3, 2, 0]) [] [] [] []
    ((0 : Matrix (Fin 4) (Fin 4) ℝ).map XR.fin) ((0 : Matrix (Fin 4) (Fin 3) ℝ).map XR.fin) ((0 : Matrix (Fin 3) (Fin 3) ℝ).map XR.fin) 5
    (by norm_num) (by norm_num) _ l hk hl
  exact ⟨F, U, E, V, h, h3⟩

end Verif
