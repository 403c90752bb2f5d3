import Verif.Props.Inv3
import Verif.Props.Kalman3

/-!
# What the error of the inverse does to its users (C35, C84, C108, C113)
-/

set_option linter.unusedSectionVars false

namespace Verif

open Out Matrix Quaternion

variable {n r c : ℕ}

/-! ## Facts about matrices with `x · A x ≥ μ x · x` -/

theorem Coercive.solve {A : Matrix (Fin n) (Fin n) ℝ} {μ : ℝ} (h : Coercive μ A) (hμ : 0 < μ) (w : Fin n → ℝ) :
    μ ^ 2 * ∑ i, w i ^ 2 ≤ ∑ i, (A *ᵥ w) i ^ 2 := by
  have h7 := h w
  have hcs : (∑ i, w i * (A *ᵥ w) i) ^ 2 ≤ (∑ i, w i ^ 2) * ∑ i, (A *ᵥ w) i ^ 2 := Finset.sum_mul_sq_le_sq_mul_sq _ _ _
  have hS : 0 ≤ ∑ i, w i ^ 2 := Finset.sum_nonneg fun _ _ => sq_nonneg _
  have hc : 0 ≤ ∑ i, (A *ᵥ w) i ^ 2 := Finset.sum_nonneg fun _ _ => sq_nonneg _
  rcases hS.eq_or_lt with h0 | h0
  · rw [← h0, mul_zero]
    exact hc
  · refine le_of_mul_le_mul_left ?_ h0
    calc (∑ i, w i ^ 2) * (μ ^ 2 * ∑ i, w i ^ 2) = (μ * ∑ i, w i ^ 2) ^ 2 := by ring
      _ ≤ _ := (pow_le_pow_left₀ (by positivity) h7 2).trans hcs

theorem invDelta_nonneg {ρ : ℝ} (h : 0 ≤ ρ) : 0 ≤ invDelta n ρ := by unfold invDelta; positivity

/-- The inverse that is computed into an uninitialised local. -/
theorem mtxInv_near_uninit (junk : ℕ → XR) (A : Matrix (Fin n) (Fin n) ℝ) (hn : 0 < n) (hdet : A.det ≠ 0) (hA : PivotsOK A) :
    ∃ C A' : Matrix (Fin n) (Fin n) ℝ, mtxInv junk (mat A []) (Mtx.uninit junk n n) = ok (0, mat C []) ∧ C * A' = 1 ∧ A' * C = 1 ∧
      ∀ i j, |A' i j - A i j| ≤ invTol A i := by
  by_cases h3 : n = 3
  · subst h3
    obtain ⟨U, hU⟩ := uninit_eq junk 3 3
    obtain ⟨C, h1, h2, h4⟩ := mtx_inv_3x3_correct (junk 0) A U [] [] hdet
    refine ⟨C, A, ?_, h4, h2, fun i j => ?_⟩
    · unfold mtxInv
      rw [if_pos (by rfl), hU]
      exact h1
    · rw [sub_self, abs_zero]
      unfold invTol
      have : 0 ≤ ∑ j, |A i j| := Finset.sum_nonneg fun _ _ => abs_nonneg _
      positivity
  · rw [mtxInv_uninit_eq junk A 0 hn.ne' h3]
    exact mtx_inv_backward junk A 0 [] [] hn hdet hA

/-- The same for a matrix in which no non-zero number below 1e-6 occurs. -/
theorem mtxInv_noTiny_uninit (junk : ℕ → XR) (A : Matrix (Fin n) (Fin n) ℝ) (hn : 0 < n) (hdet : A.det ≠ 0) (hA : NoTiny A) :
    ∃ C : Matrix (Fin n) (Fin n) ℝ, mtxInv junk (mat A []) (Mtx.uninit junk n n) = ok (0, mat C []) ∧ A * C = 1 ∧ C * A = 1 := by
  by_cases h3 : n = 3
  · subst h3
    obtain ⟨U, hU⟩ := uninit_eq junk 3 3
    obtain ⟨C, h1, h2, h4⟩ := mtx_inv_3x3_correct (junk 0) A U [] [] hdet
    refine ⟨C, ?_, h2, h4⟩
    unfold mtxInv
    rw [if_pos (by rfl), hU]
    exact h1
  · rw [mtxInv_uninit_eq junk A 0 hn.ne' h3]
    exact mtx_inv_noTiny_partial junk A 0 [] [] hn hdet hA

theorem mtxInv_coercive_uninit (junk : ℕ → XR) (A : Matrix (Fin n) (Fin n) ℝ) (hn : 0 < n) {μ ρ : ℝ} (hc : Coercive μ A)
    (hρ : ∀ i, ∑ j, |A i j| ≤ ρ) (hμ : 1 / 1000000 + n * invDelta n ρ ≤ μ) :
    ∃ C A' : Matrix (Fin n) (Fin n) ℝ, mtxInv junk (mat A []) (Mtx.uninit junk n n) = ok (0, mat C []) ∧ C * A' = 1 ∧ A' * C = 1 ∧
      (∀ i j, |A' i j - A i j| ≤ invDelta n ρ) ∧ 0 < μ - n * invDelta n ρ ∧ 0 ≤ invDelta n ρ ∧ Coercive (μ - n * invDelta n ρ) A' := by
  have hρ0 : 0 ≤ ρ := le_trans (Finset.sum_nonneg fun _ _ => abs_nonneg _) (hρ ⟨0, hn⟩)
  have hδ : 0 ≤ invDelta n ρ := invDelta_nonneg hρ0
  have hμ0 : 0 < μ := by
    have : 0 ≤ n * invDelta n ρ := by positivity
    linarith
  obtain ⟨C, A', h1, h2, h3, h4⟩ := mtxInv_near_uninit junk A hn (hc.det_ne hμ0) (pivotsOK_of_coercive hc hρ hμ)
  have h5 : ∀ i j, |A' i j - A i j| ≤ invDelta n ρ := by
    intro i j
    refine (h4 i j).trans ?_
    unfold invTol invDelta
    refine mul_le_mul_of_nonneg_left ?_ (by norm_num)
    exact mul_le_mul_of_nonneg_right (by linarith [hρ i]) (by positivity)
  exact ⟨C, A', h1, h2, h3, h5, by linarith, hδ, hc.near h5⟩

/-! ## Least squares (C84, C108) -/

/-- Coefficients that solve nearby normal equations miss the minimum by little. -/
theorem normal_near {k : ℕ} (d : Fin r → ℝ) (M : Matrix (Fin r) (Fin k) ℝ) (y : Fin r → ℝ) (G' : Matrix (Fin k) (Fin k) ℝ) (b : Fin k → ℝ)
    {μ δ : ℝ} (hμ : 0 < μ) (hc : Coercive μ (Mᵀ * Matrix.diagonal d * M)) (hδ : ∀ i j, |G' i j - (Mᵀ * Matrix.diagonal d * M) i j| ≤ δ)
    (hb : G' *ᵥ b = (Mᵀ * Matrix.diagonal d) *ᵥ y) (b' : Fin k → ℝ) :
    ∑ i, d i * (y i - (M *ᵥ b) i) ^ 2 ≤ ∑ i, d i * (y i - (M *ᵥ b') i) ^ 2 + k * (δ * ∑ j, |b j|) ^ 2 / μ := by
  obtain ⟨D, hD⟩ : ∃ D : Fin k → ℝ, D = b - b' := ⟨_, rfl⟩
  obtain ⟨res, hres⟩ : ∃ s : Fin k → ℝ, s = (G' - Mᵀ * Matrix.diagonal d * M) *ᵥ b := ⟨_, rfl⟩
  have hr : ∀ j, ∑ i, M i j * (d i * (y i - (M *ᵥ b) i)) = res j := by
    intro j
    have h1 : (Mᵀ * Matrix.diagonal d) *ᵥ (y - M *ᵥ b) = res := by
      rw [hres, Matrix.sub_mulVec, hb, Matrix.mulVec_sub, Matrix.mulVec_mulVec]
    rw [← h1]
    simp only [Matrix.mulVec, dotProduct, Matrix.mul_diagonal, Matrix.transpose_apply, Pi.sub_apply]
    exact Finset.sum_congr rfl fun i _ => by ring
  have hress : ∀ j, |res j| ≤ δ * ∑ i, |b i| := by
    intro j
    rw [hres]
    simp only [Matrix.mulVec, dotProduct, Matrix.sub_apply]
    refine (Finset.abs_sum_le_sum_abs _ _).trans ?_
    rw [Finset.mul_sum]
    exact Finset.sum_le_sum fun i _ => by rw [abs_mul]; exact mul_le_mul_of_nonneg_right (hδ j i) (abs_nonneg _)
  have hdec : ∀ i, d i * (y i - (M *ᵥ b') i) ^ 2 = d i * (y i - (M *ᵥ b) i) ^ 2 +
      2 * (d i * (y i - (M *ᵥ b) i) * (M *ᵥ D) i) + d i * (M *ᵥ D) i ^ 2 := by
    intro i
    rw [hD, Matrix.mulVec_sub, Pi.sub_apply]
    ring
  have hcross : ∑ i, d i * (y i - (M *ᵥ b) i) * (M *ᵥ D) i = ∑ j, D j * res j := by
    have : ∀ i, d i * (y i - (M *ᵥ b) i) * (M *ᵥ D) i = ∑ j, D j * (M i j * (d i * (y i - (M *ᵥ b) i))) := by
      intro i
      rw [show (M *ᵥ D) i = ∑ j, M i j * D j from rfl, Finset.mul_sum]
      exact Finset.sum_congr rfl fun j _ => by ring
    simp only [this]
    rw [Finset.sum_comm]
    refine Finset.sum_congr rfl fun j _ => ?_
    rw [← Finset.mul_sum, hr]
  have hquad : ∑ i, d i * (M *ᵥ D) i ^ 2 = ∑ j, D j * ((Mᵀ * Matrix.diagonal d * M) *ᵥ D) j := by
    have h1 : (Mᵀ * Matrix.diagonal d * M) *ᵥ D = Mᵀ *ᵥ fun i => d i * (M *ᵥ D) i := by
      rw [Matrix.mul_assoc, ← Matrix.mulVec_mulVec, ← Matrix.mulVec_mulVec]
      congr 1
      funext i
      rw [Matrix.mulVec_diagonal]
    rw [h1, show (∑ j, D j * (Mᵀ *ᵥ fun i => d i * (M *ᵥ D) i) j) = D ⬝ᵥ (Mᵀ *ᵥ fun i => d i * (M *ᵥ D) i) from rfl, Matrix.dotProduct_mulVec,
      Matrix.vecMul_transpose]
    exact Finset.sum_congr rfl fun i _ => by ring
  have hc1 := hc D
  simp only [hdec, Finset.sum_add_distrib]
  rw [← Finset.mul_sum, hcross, hquad]
  have hsq : ∑ j, res j ^ 2 ≤ k * (δ * ∑ j, |b j|) ^ 2 := by
    calc ∑ j, res j ^ 2 ≤ ∑ _j : Fin k, (δ * ∑ j, |b j|) ^ 2 := by
          refine Finset.sum_le_sum fun j _ => ?_
          rw [← sq_abs (res j)]
          exact pow_le_pow_left₀ (abs_nonneg _) (hress j) 2
      _ = _ := by simp
  have hamgm : ∀ j, -(2 * (D j * res j)) ≤ μ * D j ^ 2 + res j ^ 2 / μ := by
    intro j
    have : μ * D j ^ 2 + res j ^ 2 / μ + 2 * (D j * res j) = (μ * D j + res j) ^ 2 / μ := by
      field_simp
      ring
    have h2 : 0 ≤ (μ * D j + res j) ^ 2 / μ := by positivity
    linarith
  have hsum := Finset.sum_le_sum fun j (_ : j ∈ Finset.univ) => hamgm j
  rw [Finset.sum_neg_distrib, ← Finset.mul_sum, Finset.sum_add_distrib, ← Finset.mul_sum, ← Finset.sum_div] at hsum
  have hdiv : (∑ j, res j ^ 2) / μ ≤ k * (δ * ∑ j, |b j|) ^ 2 / μ := by gcongr
  linarith

/-- C84: for every design whose normal matrix has no eigenvalue below `μ` (where `μ` exceeds 1e-6 by the stated amount), the regression succeeds
and the sum of squared residuals it reaches is within a stated, small distance of the smallest one. Nothing is assumed about `zsl_mtx_inv`. -/
theorem sta_mult_linear_reg_near (junk : ℕ → XR) (X : Matrix (Fin r) (Fin c) ℝ) (y : Fin r → ℝ) (b : Fin (c + 1) → XR) (t u v : List XR)
    (q : XR) (hdet : 1e-6 ≤ |((design X).transpose * design X).det|) (hy : NonConst y) (μ ρ : ℝ)
    (hc : Coercive μ ((design X).transpose * design X)) (hρ : ∀ i, ∑ j, |((design X).transpose * design X) i j| ≤ ρ)
    (hμ : 1 / 1000000 + ((c + 1 : ℕ) : ℝ) * invDelta (c + 1) ρ ≤ μ) :
    ∃ (β : Fin (c + 1) → ℝ) (R : ℝ), staMultLinearReg junk (mat X t) (vec y u) (vecOf b v) q = ok (0, vec β v, XR.fin R) ∧
      (∀ β', regResid 1 X y β ≤ regResid 1 X y β' + ((c + 1 : ℕ) : ℝ) * (invDelta (c + 1) ρ * ∑ j, |β j|) ^ 2 / μ) ∧
      R = 1 - regResid 1 X y β / ∑ i, (y i - meanOf y) ^ 2 := by
  have hr := hy.pos
  have hpos := sxx_pos y hy
  obtain ⟨C, G', h1, h2, h3, h4, h5, h6, -⟩ := mtxInv_coercive_uninit junk _ (Nat.succ_pos c) hc hρ hμ
  have hμ0 : 0 < μ := by
    have : 0 ≤ ((c + 1 : ℕ) : ℝ) * invDelta (c + 1) ρ := by positivity
    linarith
  have e := staMultLinearReg_eq junk X y b t u v q hr hdet 0 C h1
  rw [XR.fin_div hpos.ne', XR.fin_sub] at e
  refine ⟨_, _, e, fun β' => ?_, rfl⟩
  rw [regResid_eq, regResid_eq]
  have hd1 : (design X).transpose * Matrix.diagonal (1 : Fin r → ℝ) * design X = (design X).transpose * design X := by
    rw [show Matrix.diagonal (1 : Fin r → ℝ) = 1 from Matrix.diagonal_one, Matrix.mul_one]
  refine normal_near 1 (design X) y G' _ hμ0 (hd1 ▸ hc) (by rw [hd1]; exact h4) ?_ β'
  have hb : (fun j => (C * (design X).transpose * colMat y) j 0) = (C * (design X).transpose).mulVec y := by
    funext j
    rw [Matrix.mul_apply]
    rfl
  rw [hb, Matrix.mulVec_mulVec, ← Matrix.mul_assoc, h3, Matrix.one_mul, show Matrix.diagonal (1 : Fin r → ℝ) = 1 from Matrix.diagonal_one,
    Matrix.mul_one]

/-- C84: the same for the weighted regression. -/
theorem sta_weighted_reg_near (junk : ℕ → XR) (X : Matrix (Fin r) (Fin c) ℝ) (y w : Fin r → ℝ) (b : Fin (c + 1) → XR)
    (t u s v : List XR) (q : XR) (hr : 1 ≤ r) (hw : ∀ i, 1e-6 ≤ w i)
    (hdet : 1e-6 ≤ |((design X).transpose * Matrix.diagonal (fun i => 1 / w i) * design X).det|) (μ ρ : ℝ)
    (hc : Coercive μ ((design X).transpose * Matrix.diagonal (fun i => 1 / w i) * design X))
    (hρ : ∀ i, ∑ j, |((design X).transpose * Matrix.diagonal (fun i => 1 / w i) * design X) i j| ≤ ρ)
    (hμ : 1 / 1000000 + ((c + 1 : ℕ) : ℝ) * invDelta (c + 1) ρ ≤ μ) :
    ∃ (w' : Vec XR) (β : Fin (c + 1) → ℝ) (R : XR),
      staWeightedMultLinearReg junk (mat X t) (vec y u) (vec w s) (vecOf b v) q = ok (0, w', vec β v, R) ∧
      ∀ β', regResid (fun i => 1 / w i) X y β ≤
        regResid (fun i => 1 / w i) X y β' + ((c + 1 : ℕ) : ℝ) * (invDelta (c + 1) ρ * ∑ j, |β j|) ^ 2 / μ := by
  obtain ⟨C, G', h1, h2, h3, h4, h5, h6, -⟩ := mtxInv_coercive_uninit junk _ (Nat.succ_pos c) hc hρ hμ
  have hμ0 : 0 < μ := by
    have : 0 ≤ ((c + 1 : ℕ) : ℝ) * invDelta (c + 1) ρ := by positivity
    linarith
  refine ⟨_, _, _, staWeightedMultLinearReg_eq junk X y w b t u s v q hr (fun i => (hw i).trans (le_abs_self _)) hdet 0 C h1, fun β' => ?_⟩
  rw [regResid_eq, regResid_eq]
  refine normal_near (fun i => 1 / w i) (design X) y G' _ hμ0 hc h4 ?_ β'
  have hb : (fun j => (C * ((design X).transpose * Matrix.diagonal fun i => 1 / w i) * colMat y) j 0) =
      (C * ((design X).transpose * Matrix.diagonal fun i => 1 / w i)).mulVec y := by
    funext j
    rw [Matrix.mul_apply]
    rfl
  rw [hb, Matrix.mulVec_mulVec, ← Matrix.mul_assoc, h3, Matrix.one_mul]

/-- C84: whenever the elimination of the normal matrix meets no non-zero number below 1e-6 the coefficients minimise the sum of squared
residuals exactly. -/
theorem sta_mult_linear_reg_noTiny (junk : ℕ → XR) (X : Matrix (Fin r) (Fin c) ℝ) (y : Fin r → ℝ) (b : Fin (c + 1) → XR) (t u v : List XR)
    (q : XR) (hdet : 1e-6 ≤ |((design X).transpose * design X).det|) (hy : NonConst y) (hX : NoTiny ((design X).transpose * design X)) :
    ∃ (β : Fin (c + 1) → ℝ) (R : ℝ), staMultLinearReg junk (mat X t) (vec y u) (vecOf b v) q = ok (0, vec β v, XR.fin R) ∧
      (∀ β', regResid 1 X y β ≤ regResid 1 X y β') ∧ R = 1 - regResid 1 X y β / ∑ i, (y i - meanOf y) ^ 2 ∧ 0 ≤ R ∧ R ≤ 1 := by
  obtain ⟨C, h1, h2, -⟩ := mtxInv_noTiny_uninit junk _ (Nat.succ_pos c) (by
    intro h
    rw [h] at hdet
    norm_num at hdet) hX
  exact sta_mult_linear_reg_partial junk X y b t u v q hdet hy 0 C h1 h2

/-- C108: for every set of points whose normal matrix has no eigenvalue below `μ` (where `μ` exceeds 1e-6 by the stated amount), the quadric that
is stored misses the points by little more than the best one, and if the points lie on a quadric, its coefficients are close to the ones stored. -/
theorem sta_quad_fit_near (junk : ℕ → XR) (P : Matrix (Fin r) (Fin 3) ℝ) (b : Fin 9 → XR) (t v : List XR) (hr : 1 ≤ r) (μ ρ : ℝ)
    (hc : Coercive μ ((quadDesign P).transpose * quadDesign P)) (hρ : ∀ i, ∑ j, |((quadDesign P).transpose * quadDesign P) i j| ≤ ρ)
    (hμ : 1 / 1000000 + ((9 : ℕ) : ℝ) * invDelta 9 ρ ≤ μ) :
    ∃ c : Fin 9 → ℝ, staQuadFit junk (mat P t) (vecOf b v) = ok (0, vec c v) ∧
      (∀ c', quadMiss c P ≤ quadMiss c' P + ((9 : ℕ) : ℝ) * (invDelta 9 ρ * ∑ j, |c j|) ^ 2 / μ) ∧
      ∀ c', (∀ i, quadric c' (P i) = 1) →
        (μ - ((9 : ℕ) : ℝ) * invDelta 9 ρ) ^ 2 * ∑ j, (c j - c' j) ^ 2 ≤ ((9 : ℕ) : ℝ) * (invDelta 9 ρ * ∑ j, |c' j|) ^ 2 := by
  obtain ⟨C, G', h1, h2, h3, h4, h5, h6, h7⟩ := mtxInv_coercive_uninit junk _ (by omega : 0 < 9) hc hρ hμ
  have hμ0 : 0 < μ := by
    have : 0 ≤ ((9 : ℕ) : ℝ) * invDelta 9 ρ := by positivity
    linarith
  have hb : (fun j => (C * (quadDesign P).transpose * onesCol r) j 0) = (C * (quadDesign P).transpose).mulVec 1 := by
    funext j
    rw [Matrix.mul_apply]
    rfl
  have hG : G' *ᵥ (fun j => (C * (quadDesign P).transpose * onesCol r) j 0) = (quadDesign P).transpose *ᵥ 1 := by
    rw [hb, Matrix.mulVec_mulVec, ← Matrix.mul_assoc, h3, Matrix.one_mul]
  refine ⟨_, staQuadFit_eq junk P b t v hr 0 C h1, fun c' => ?_, fun c' hc' => ?_⟩
  · rw [quadMiss_eq, quadMiss_eq]
    have hd1 : (quadDesign P).transpose * Matrix.diagonal (1 : Fin r → ℝ) * quadDesign P = (quadDesign P).transpose * quadDesign P := by
      rw [show Matrix.diagonal (1 : Fin r → ℝ) = 1 from Matrix.diagonal_one, Matrix.mul_one]
    refine normal_near 1 (quadDesign P) 1 G' _ hμ0 (hd1 ▸ hc) (by rw [hd1]; exact h4) ?_ c'
    rw [hG, show Matrix.diagonal (1 : Fin r → ℝ) = 1 from Matrix.diagonal_one, Matrix.mul_one]
  · have hone : (1 : Fin r → ℝ) = (quadDesign P).mulVec c' := by
      funext i
      rw [quadDesign_mulVec, hc' i]
      rfl
    refine (h7.solve h5 fun j => (C * (quadDesign P).transpose * onesCol r) j 0 - c' j).trans ?_
    have h8 : G' *ᵥ (fun j => (C * (quadDesign P).transpose * onesCol r) j 0 - c' j) =
        ((quadDesign P).transpose * quadDesign P - G') *ᵥ c' := by
      rw [show (fun j => (C * (quadDesign P).transpose * onesCol r) j 0 - c' j) =
        (fun j => (C * (quadDesign P).transpose * onesCol r) j 0) - c' from rfl, Matrix.mulVec_sub, hG, hone, Matrix.mulVec_mulVec,
        Matrix.sub_mulVec]
    rw [h8]
    calc ∑ i, (((quadDesign P).transpose * quadDesign P - G') *ᵥ c') i ^ 2 ≤ ∑ _i : Fin 9, (invDelta 9 ρ * ∑ j, |c' j|) ^ 2 := by
          refine Finset.sum_le_sum fun i _ => ?_
          rw [← sq_abs]
          refine pow_le_pow_left₀ (abs_nonneg _) ?_ 2
          simp only [Matrix.mulVec, dotProduct, Matrix.sub_apply]
          refine (Finset.abs_sum_le_sum_abs _ _).trans ?_
          rw [Finset.mul_sum]
          exact Finset.sum_le_sum fun j _ => by
            rw [abs_mul, abs_sub_comm]
            exact mul_le_mul_of_nonneg_right (h4 i j) (abs_nonneg _)
      _ = _ := by simp

/-- C108: whenever the elimination of the normal matrix meets no non-zero number below 1e-6, the fit is the best one, and exact for points on a
quadric. -/
theorem sta_quad_fit_noTiny (junk : ℕ → XR) (P : Matrix (Fin r) (Fin 3) ℝ) (b : Fin 9 → XR) (t v : List XR) (hr : 1 ≤ r)
    (hdet : ((quadDesign P).transpose * quadDesign P).det ≠ 0) (hP : NoTiny ((quadDesign P).transpose * quadDesign P)) :
    ∃ c : Fin 9 → ℝ, staQuadFit junk (mat P t) (vecOf b v) = ok (0, vec c v) ∧ (∀ c', quadMiss c P ≤ quadMiss c' P) ∧
      ∀ c', (∀ i, quadric c' (P i) = 1) → c = c' := by
  obtain ⟨C, h1, h2, -⟩ := mtxInv_noTiny_uninit junk _ (by omega : 0 < 9) hdet hP
  exact sta_quad_fit_partial junk P b t v hr 0 C h1 h2

/-! ## The wedge product (C35) -/

/-- C35: when the elimination needs no search for a pivot, the stored vector is orthogonal to every row, up to about 1e-6 times the sum of the
absolute values of the row and of the vector. -/
theorem mtx_vec_wedge_near (junk : ℕ → XR) (M : Matrix (Fin n) (Fin (n + 1)) ℝ) (t u : List XR) (x : Fin (n + 1) → ℝ) (hn : 3 ≤ n)
    (hdet : (wedgeMat M).det ≠ 0) (hM : PivotsOK (wedgeMat M)) :
    ∃ v : Fin (n + 1) → ℝ, mtxVecWedge junk (mat M t) (vec x u) = ok (0, vec v u) ∧ v ≠ 0 ∧
      ∀ i, |∑ j, M i j * v j| ≤ invTol (wedgeMat M) i.castSucc * ∑ j, |v j| := by
  obtain ⟨C, A', h1, h2, h3, h4⟩ := mtx_inv_backward junk (wedgeMat M) 0 [] [] (Nat.succ_pos n) hdet hM
  have hw : ∀ i j, wedgeMat M (Fin.castSucc i) j = M i j := by
    intro i j
    simp only [wedgeMat, Matrix.of_apply, Fin.snoc_castSucc]
  obtain ⟨v, hv⟩ : ∃ v : Fin (n + 1) → ℝ, v = fun i => (wedgeMat M).det * C i (Fin.last n) := ⟨_, rfl⟩
  have hA : A' *ᵥ v = fun i => (wedgeMat M).det * (1 : Matrix (Fin (n + 1)) (Fin (n + 1)) ℝ) i (Fin.last n) := by
    funext i
    rw [← h3, hv]
    simp only [Matrix.mulVec, dotProduct, Matrix.mul_apply, Finset.mul_sum]
    exact Finset.sum_congr rfl fun j _ => by ring
  refine ⟨v, ?_, fun h0 => ?_, fun i => ?_⟩
  · rw [hv]
    exact mtx_vec_wedge_exact junk M t u x hn C fun B => by
      rw [mtxInv_out junk _ [] [] B ((0 : Matrix (Fin (n + 1)) (Fin (n + 1)) ℝ).map XR.fin) (by omega) (by omega)]
      exact h1
  · rw [h0, Matrix.mulVec_zero] at hA
    have := congrFun hA (Fin.last n)
    rw [Matrix.one_apply_eq, mul_one] at this
    exact hdet this.symm
  · have h5 : ∑ j, M i j * v j = ∑ j, (wedgeMat M i.castSucc j - A' i.castSucc j) * v j := by
      have := congrFun hA i.castSucc
      rw [Matrix.one_apply_ne (Fin.castSucc_lt_last i).ne, mul_zero] at this
      simp only [sub_mul, Finset.sum_sub_distrib, hw]
      rw [show ∑ j, A' i.castSucc j * v j = 0 from this, sub_zero]
    rw [h5, Finset.mul_sum]
    refine (Finset.abs_sum_le_sum_abs _ _).trans (Finset.sum_le_sum fun j _ => ?_)
    rw [abs_mul, abs_sub_comm]
    exact mul_le_mul_of_nonneg_right (h4 _ j) (abs_nonneg _)

/-- C35: when the elimination meets no non-zero number below 1e-6, the stored vector is exactly orthogonal to every row. -/
theorem mtx_vec_wedge_noTiny (junk : ℕ → XR) (M : Matrix (Fin n) (Fin (n + 1)) ℝ) (t u : List XR) (x : Fin (n + 1) → ℝ) (hn : 3 ≤ n)
    (hdet : (wedgeMat M).det ≠ 0) (hM : NoTiny (wedgeMat M)) :
    ∃ v : Fin (n + 1) → ℝ, mtxVecWedge junk (mat M t) (vec x u) = ok (0, vec v u) ∧ (∀ i, ∑ j, M i j * v j = 0) ∧ v (Fin.last n) ≠ 0 := by
  obtain ⟨C, h1, h2, -⟩ := mtx_inv_noTiny_partial junk (wedgeMat M) 0 [] [] (Nat.succ_pos n) hdet hM
  exact mtx_vec_wedge_of_inv junk M t u x hn C hdet (fun B => by
    rw [mtxInv_out junk _ [] [] B ((0 : Matrix (Fin (n + 1)) (Fin (n + 1)) ℝ).map XR.fin) (by omega) (by omega)]
    exact h1) h2

/-! ## The Kalman filter (C113) -/

theorem abs_dot_le (u w : Fin n → ℝ) : |∑ i, u i * w i| ≤ √(∑ i, u i ^ 2) * √(∑ i, w i ^ 2) := by
  rw [← Real.sqrt_mul (Finset.sum_nonneg fun _ _ => sq_nonneg _)]
  refine Real.abs_le_sqrt ?_
  exact Finset.sum_mul_sq_le_sq_mul_sq _ _ _

theorem mulVec_small {E : Matrix (Fin n) (Fin n) ℝ} {δ : ℝ} (hE : ∀ i j, |E i j| ≤ δ) (w : Fin n → ℝ) :
    ∑ i, (E *ᵥ w) i ^ 2 ≤ (n * δ) ^ 2 * ∑ i, w i ^ 2 := by
  have h1 : ∀ i, (E *ᵥ w) i ^ 2 ≤ (n * δ ^ 2) * ∑ j, w j ^ 2 := by
    intro i
    calc (E *ᵥ w) i ^ 2 ≤ (∑ j, E i j ^ 2) * ∑ j, w j ^ 2 := Finset.sum_mul_sq_le_sq_mul_sq Finset.univ (E i) w
      _ ≤ _ := by
        refine mul_le_mul_of_nonneg_right ?_ (Finset.sum_nonneg fun _ _ => sq_nonneg _)
        calc ∑ j, E i j ^ 2 ≤ ∑ _j : Fin n, δ ^ 2 := by
              refine Finset.sum_le_sum fun j _ => ?_
              rw [← sq_abs]
              exact pow_le_pow_left₀ (abs_nonneg _) (hE i j) 2
          _ = _ := by simp
  calc ∑ i, (E *ᵥ w) i ^ 2 ≤ ∑ _i : Fin n, (n * δ ^ 2) * ∑ j, w j ^ 2 := Finset.sum_le_sum fun i _ => h1 i
    _ = _ := by
      simp
      ring

/-- The difference of the inverses of two nearby matrices, as a bilinear form. -/
theorem inverse_near {S S' C C' : Matrix (Fin n) (Fin n) ℝ} {μ μ' δ : ℝ} (hμ : 0 < μ) (hμ' : 0 < μ') (hS : Coercive μ S)
    (hS' : Coercive μ' S') (hC : S * C = 1) (hC' : S' * C' = 1) (hC2 : C' * S' = 1) (hδ : ∀ i j, |S' i j - S i j| ≤ δ) (hδ0 : 0 ≤ δ)
    (u w : Fin n → ℝ) : |u ⬝ᵥ ((C - C') *ᵥ w)| ≤ √(∑ i, u i ^ 2) * √(∑ i, w i ^ 2) * (n * δ / (μ * μ')) := by
  have hE : (C - C') *ᵥ w = C' *ᵥ ((S' - S) *ᵥ (C *ᵥ w)) := by
    rw [Matrix.mulVec_mulVec, Matrix.mulVec_mulVec]
    congr 1
    rw [Matrix.mul_sub, Matrix.sub_mul, hC2, Matrix.one_mul, Matrix.mul_assoc, hC, Matrix.mul_one]
  obtain ⟨a, ha⟩ : ∃ a, a = C *ᵥ w := ⟨_, rfl⟩
  obtain ⟨z, hz⟩ : ∃ z, z = (S' - S) *ᵥ a := ⟨_, rfl⟩
  obtain ⟨d, hd⟩ : ∃ d, d = C' *ᵥ z := ⟨_, rfl⟩
  have h1 : μ ^ 2 * ∑ i, a i ^ 2 ≤ ∑ i, w i ^ 2 := by
    have := hS.solve hμ a
    rwa [ha, Matrix.mulVec_mulVec, hC, Matrix.one_mulVec, ← ha] at this
  have h2 : ∑ i, z i ^ 2 ≤ (n * δ) ^ 2 * ∑ i, a i ^ 2 := by
    rw [hz]
    exact mulVec_small (by simpa using hδ) a
  have h3 : μ' ^ 2 * ∑ i, d i ^ 2 ≤ ∑ i, z i ^ 2 := by
    have := hS'.solve hμ' d
    rwa [hd, Matrix.mulVec_mulVec, hC', Matrix.one_mulVec, ← hd] at this
  have h4 : (μ * μ') ^ 2 * ∑ i, d i ^ 2 ≤ (n * δ) ^ 2 * ∑ i, w i ^ 2 := by
    calc (μ * μ') ^ 2 * ∑ i, d i ^ 2 = μ ^ 2 * (μ' ^ 2 * ∑ i, d i ^ 2) := by ring
      _ ≤ μ ^ 2 * ((n * δ) ^ 2 * ∑ i, a i ^ 2) := mul_le_mul_of_nonneg_left (h3.trans h2) (sq_nonneg _)
      _ = (n * δ) ^ 2 * (μ ^ 2 * ∑ i, a i ^ 2) := by ring
      _ ≤ _ := mul_le_mul_of_nonneg_left h1 (sq_nonneg _)
  have h5 : √(∑ i, d i ^ 2) ≤ √(∑ i, w i ^ 2) * (n * δ / (μ * μ')) := by
    rw [Real.sqrt_le_left (by positivity), mul_pow, Real.sq_sqrt (Finset.sum_nonneg fun _ _ => sq_nonneg _), div_pow, mul_div_assoc',
      le_div_iff₀ (by positivity)]
    linarith
  rw [hE, ← ha, ← hz, ← hd, mul_assoc]
  exact (abs_dot_le u d).trans (mul_le_mul_of_nonneg_left h5 (Real.sqrt_nonneg _))

/-- C113: for every positive semidefinite covariance, and readings for which the covariance of the innovation has no eigenvalue below `μ` (where
`μ` exceeds 1e-6 by the stated amount), the covariance that is stored is within a stated distance of a symmetric positive semidefinite one that
does not exceed the predicted covariance. Nothing is assumed about `zsl_mtx_inv`. -/
theorem kalm_covariance_near (junk : ℕ → XR) (x : KalmIn) (hx : x.Good) {P : Matrix (Fin 4) (Fin 4) ℝ} (hP : P.PosSemidef) (t : List XR) (q : ℍ[ℝ])
    (μ ρ : ℝ) (hc : Coercive μ (x.S q P)) (hρ : ∀ i, ∑ j, |x.S q P i j| ≤ ρ) (hμ : 1 / 1000000 + ((6 : ℕ) : ℝ) * invDelta 6 ρ ≤ μ) :
    ∃ P' q' Pe, fusKalmFeed junk x.freq (optFin x.incl) x.sens (x.cfg P t) (quat q) true = ok (0, x.after.sens, x.cfg P' t, quat q', true) ∧
      Matrix.PosSemidef Pe ∧ (x.prior q P - Pe).PosSemidef ∧
      ∀ i j, |P' i j - Pe i j| ≤ √(∑ a, (x.prior q P * (x.H q)ᵀ) i a ^ 2) * √(∑ a, (x.H q * x.prior q P) a j ^ 2) *
        (((6 : ℕ) : ℝ) * invDelta 6 ρ / (μ * (μ - ((6 : ℕ) : ℝ) * invDelta 6 ρ))) := by
  obtain ⟨C', S', h1, h2, h3, h4, h5, h6, h7⟩ := mtxInv_coercive_uninit junk _ (by omega : 0 < 6) hc hρ hμ
  have hμ0 : 0 < μ := by
    have : 0 ≤ ((6 : ℕ) : ℝ) * invDelta 6 ρ := by positivity
    linarith
  obtain ⟨C, hC1, hC2⟩ := kalm_feed_correct junk x hx.freq hx.varG hx.varA hx.varM P t q
  have hCC : C = C' := by
    rw [h1] at hC1
    have := congrArg (fun o : Out (Int × Mtx XR) => match o with | ok x => x.2 | ub => mat C []) hC1
    have := (mtxOf_inj this).1
    ext i j
    have := congrFun (congrFun this i) j
    simpa using this.symm
  subst hCC
  have hu : IsUnit (x.S q P) := (Matrix.isUnit_iff_isUnit_det _).2 (isUnit_iff_ne_zero.2 (hc.det_ne hμ0))
  obtain ⟨D, hD⟩ : ∃ D, D * x.S q P = 1 := ⟨_, Matrix.nonsing_inv_mul _ ((Matrix.isUnit_iff_isUnit_det _).1 hu)⟩
  have hp := x.prior_posSemidef hx.varG q hP
  obtain ⟨h8, h9⟩ := kalm_joseph hp (x.noise_posSemidef hx.varA hx.varM) hD
  refine ⟨_, _, _, hC2, h8, h9, fun i j => ?_⟩
  have hdiff : (x.post q P C - (1 - x.prior q P * (x.H q)ᵀ * D * x.H q) * x.prior q P : Matrix (Fin 4) (Fin 4) ℝ) i j =
      (x.prior q P * (x.H q)ᵀ) i ⬝ᵥ ((D - C) *ᵥ fun a => (x.H q * x.prior q P) a j) := by
    have e : x.post q P C - (1 - x.prior q P * (x.H q)ᵀ * D * x.H q) * x.prior q P =
        x.prior q P * (x.H q)ᵀ * ((D - C) * (x.H q * x.prior q P)) := by
      simp only [KalmIn.post, KalmIn.gain, Matrix.sub_mul, Matrix.mul_sub, Matrix.one_mul, Matrix.mul_assoc]
      abel
    rw [e, Matrix.mul_apply]
    rfl
  rw [← Matrix.sub_apply, hdiff]
  exact inverse_near hμ0 h5 hc h7 (mul_eq_one_comm.1 hD) h3 h2 h4 h6 _ _

/-- The covariance of the innovation is at least the smaller of the two variances. -/
theorem kalm_S_coercive (x : KalmIn) (hG : 0 ≤ x.varG) (q : ℍ[ℝ]) {P : Matrix (Fin 4) (Fin 4) ℝ} (hP : P.PosSemidef) {μ : ℝ} (hA : μ ≤ x.varA)
    (hM : μ ≤ x.varM) : Coercive μ (x.S q P) := by
  intro v
  have h1 : 0 ≤ v ⬝ᵥ ((x.H q * x.prior q P * (x.H q)ᵀ) *ᵥ v) := by
    have h2 := (x.prior_posSemidef hG q hP).mul_mul_conjTranspose_same (x.H q)
    rw [Matrix.conjTranspose_eq_transpose_of_trivial] at h2
    simpa using h2.dotProduct_mulVec_nonneg v
  have h3 : ∑ i, v i * (x.S q P *ᵥ v) i = v ⬝ᵥ ((x.H q * x.prior q P * (x.H q)ᵀ) *ᵥ v) + ∑ i, v i * (x.noise *ᵥ v) i := by
    rw [KalmIn.S, Matrix.add_mulVec]
    simp only [dotProduct, Pi.add_apply, mul_add, Finset.sum_add_distrib]
  have h4 : μ * ∑ i, v i ^ 2 ≤ ∑ i, v i * (x.noise *ᵥ v) i := by
    rw [KalmIn.noise, Finset.mul_sum]
    refine Finset.sum_le_sum fun i _ => ?_
    rw [Matrix.mulVec_diagonal]
    have h5 : μ ≤ ![x.varA, x.varA, x.varA, x.varM, x.varM, x.varM] i := by
      fin_cases i <;> simp [hA, hM]
    nlinarith [mul_le_mul_of_nonneg_right h5 (sq_nonneg (v i))]
  rw [h3]
  linarith

/-- C113: the same in terms of the configuration: with variances of the accelerometer and the magnetometer of at least `μ`, for every positive
semidefinite covariance. -/
theorem kalm_covariance_near_var (junk : ℕ → XR) (x : KalmIn) (hx : x.Good) {P : Matrix (Fin 4) (Fin 4) ℝ} (hP : P.PosSemidef) (t : List XR) (q : ℍ[ℝ])
    (μ ρ : ℝ) (hA : μ ≤ x.varA) (hM : μ ≤ x.varM) (hρ : ∀ i, ∑ j, |x.S q P i j| ≤ ρ) (hμ : 1 / 1000000 + ((6 : ℕ) : ℝ) * invDelta 6 ρ ≤ μ) :
    ∃ P' q' Pe, fusKalmFeed junk x.freq (optFin x.incl) x.sens (x.cfg P t) (quat q) true = ok (0, x.after.sens, x.cfg P' t, quat q', true) ∧
      Matrix.PosSemidef Pe ∧ (x.prior q P - Pe).PosSemidef ∧
      ∀ i j, |P' i j - Pe i j| ≤ √(∑ a, (x.prior q P * (x.H q)ᵀ) i a ^ 2) * √(∑ a, (x.H q * x.prior q P) a j ^ 2) *
        (((6 : ℕ) : ℝ) * invDelta 6 ρ / (μ * (μ - ((6 : ℕ) : ℝ) * invDelta 6 ρ))) :=
  kalm_covariance_near junk x hx hP t q μ ρ (kalm_S_coercive x hx.varG q hP hA hM) hρ hμ

/-! ## Cases which meet the hypotheses -/



/-- A matrix with elements below 1e-6, which `zsl_mtx_inv` does not eliminate. -/
example (junk : ℕ → XR) : ∃ C A' : Matrix (Fin 2) (Fin 2) ℝ,
    mtxInv junk (mat !![2, 1 / 10000000; 1 / 10000000, 2] []) (mat (0 : Matrix (Fin 2) (Fin 2) ℝ) []) = ok (0, mat C []) ∧ C * A' = 1 := by
  obtain ⟨C, A', h1, h2, -⟩ := mtx_inv_coercive junk !![2, 1 / 10000000; 1 / 10000000, 2] 0 [] [] (by norm_num) 1 3 (by
    intro x
    simp [Fin.sum_univ_two, Matrix.mulVec, dotProduct]
    nlinarith [sq_nonneg (x 0 + x 1), sq_nonneg (x 0), sq_nonneg (x 1)]) (by
    intro i
    fin_cases i <;> simp [Fin.sum_univ_two] <;> norm_num) (by
    unfold invDelta
    norm_num)
  exact ⟨C, A', h1, h2⟩

/-- A regression with three observations. -/
example (junk : ℕ → XR) : ∃ (β : Fin 2 → ℝ) (R : ℝ),
    staMultLinearReg junk (mat (!![0; 1; 2] : Matrix (Fin 3) (Fin 1) ℝ) []) (vec ![1, 2, 4] []) (vecOf (fun _ : Fin 2 => XR.nan) []) XR.nan =
      ok (0, vec β [], XR.fin R) := by
  have hG : (design (!![0; 1; 2] : Matrix (Fin 3) (Fin 1) ℝ)).transpose * design !![0; 1; 2] = !![3, 3; 3, 5] := by
    ext i j
    rw [Matrix.mul_apply, Fin.sum_univ_three]
    fin_cases i <;> fin_cases j <;> simp [design] <;> norm_num
  obtain ⟨β, R, h, -⟩ := sta_mult_linear_reg_near junk (!![0; 1; 2] : Matrix (Fin 3) (Fin 1) ℝ) ![1, 2, 4] (fun _ => XR.nan) [] [] [] XR.nan (by
    rw [hG, Matrix.det_fin_two]
    norm_num) ⟨0, 1, by norm_num⟩ (1 / 2) 8 (by
    rw [hG]
    intro x
    simp [Fin.sum_univ_two, Matrix.mulVec, dotProduct]
    nlinarith [sq_nonneg (5 * x 0 + 6 * x 1)]) (by
    rw [hG]
    intro i
    fin_cases i <;> simp [Fin.sum_univ_two] <;> norm_num) (by
    unfold invDelta
    norm_num)
  exact ⟨β, R, h⟩

/-- Nine points that determine a quadric. -/
noncomputable def sixNine : Matrix (Fin 9) (Fin 3) ℝ :=
  !![1, 0, 0; -1, 0, 0; 0, 1, 0; 0, -1, 0; 0, 0, 1; 0, 0, -1; 1, 1, 0; 1, 0, 1; 0, 1, 1]

theorem sixNine_coercive : Coercive (4 / 9) ((quadDesign sixNine).transpose * quadDesign sixNine) := by
  intro c
  have e : ∑ i, c i * (((quadDesign sixNine).transpose * quadDesign sixNine) *ᵥ c) i = ∑ i, quadric c (sixNine i) ^ 2 := by
    rw [← Matrix.mulVec_mulVec, show (∑ j, c j * ((quadDesign sixNine).transpose *ᵥ (quadDesign sixNine *ᵥ c)) j) =
      c ⬝ᵥ ((quadDesign sixNine).transpose *ᵥ (quadDesign sixNine *ᵥ c)) from rfl, Matrix.dotProduct_mulVec, Matrix.vecMul_transpose]
    refine Finset.sum_congr rfl fun i _ => ?_
    rw [quadDesign_mulVec, sq]
  rw [e]
  have hs : ∀ x d : ℝ, 4 / 9 * d ^ 2 - x ^ 2 / 8 ≤ (x + 2 * d) ^ 2 := by
    intro x d
    nlinarith [sq_nonneg (9 * x + 16 * d)]
  have h4 : ∀ a b p q : ℝ, (a + b + 2 * p + 2 * q) ^ 2 ≤ 4 * (a ^ 2 + b ^ 2 + 4 * p ^ 2 + 4 * q ^ 2) := by
    intro a b p q
    nlinarith [sq_nonneg (a - b), sq_nonneg (a - 2 * p), sq_nonneg (a - 2 * q), sq_nonneg (b - 2 * p), sq_nonneg (b - 2 * q),
      sq_nonneg (2 * p - 2 * q)]
  have q1 := hs (c 0 + c 1 + 2 * c 6 + 2 * c 7) (c 3)
  have q2 := hs (c 0 + c 2 + 2 * c 6 + 2 * c 8) (c 4)
  have q3 := hs (c 1 + c 2 + 2 * c 7 + 2 * c 8) (c 5)
  have r1 := h4 (c 0) (c 1) (c 6) (c 7)
  have r2 := h4 (c 0) (c 2) (c 6) (c 8)
  have r3 := h4 (c 1) (c 2) (c 7) (c 8)
  simp only [Fin.sum_univ_succ, sixNine, quadric]
  simp
  nlinarith [sq_nonneg (c 0), sq_nonneg (c 1), sq_nonneg (c 2), sq_nonneg (c 3), sq_nonneg (c 4), sq_nonneg (c 5), sq_nonneg (c 6),
    sq_nonneg (c 7), sq_nonneg (c 8)]

example (junk : ℕ → XR) : ∃ c : Fin 9 → ℝ, staQuadFit junk (mat sixNine []) (vecOf (fun _ : Fin 9 => XR.nan) []) = ok (0, vec c []) := by
  obtain ⟨c, h, -⟩ := sta_quad_fit_near junk sixNine (fun _ => XR.nan) [] [] (by norm_num) (4 / 9) 10000 sixNine_coercive (by
    intro i
    have hM : ∀ i j, |quadDesign sixNine i j| ≤ 2 := by
      intro i j
      fin_cases i <;> fin_cases j <;> simp [quadDesign, quadTerms, sixNine]
    calc ∑ j, |((quadDesign sixNine).transpose * quadDesign sixNine) i j| ≤ ∑ _j : Fin 9, (36 : ℝ) := by
          refine Finset.sum_le_sum fun j _ => ?_
          rw [Matrix.mul_apply]
          refine (Finset.abs_sum_le_sum_abs _ _).trans ?_
          calc ∑ k, |(quadDesign sixNine).transpose i k * quadDesign sixNine k j| ≤ ∑ _k : Fin 9, (4 : ℝ) := by
                refine Finset.sum_le_sum fun k _ => ?_
                rw [abs_mul, Matrix.transpose_apply]
                nlinarith [hM k i, hM k j, abs_nonneg (quadDesign sixNine k i), abs_nonneg (quadDesign sixNine k j)]
            _ = 36 := by simp; norm_num
      _ ≤ 10000 := by simp; norm_num) (by
    unfold invDelta
    norm_num)
  exact ⟨c, h⟩

/-- Three vectors of length four. -/
example (junk : ℕ → XR) : ∃ v : Fin 4 → ℝ,
    mtxVecWedge junk (mat (!![1, 0, 0, 1 / 2; 0, 1, 0, 1 / 2; 0, 0, 1, 1 / 2] : Matrix (Fin 3) (Fin 4) ℝ) []) (vec (0 : Fin 4 → ℝ) []) = ok (0, vec v []) := by
  have hW : wedgeMat (!![1, 0, 0, 1 / 2; 0, 1, 0, 1 / 2; 0, 0, 1, 1 / 2] : Matrix (Fin 3) (Fin 4) ℝ) =
      !![1, 0, 0, 1 / 2; 0, 1, 0, 1 / 2; 0, 0, 1, 1 / 2; 0, 0, 0, 1] := by
    ext i j
    fin_cases i <;> fin_cases j <;> simp [wedgeMat, Fin.snoc] <;> rfl
  have hc : Coercive (1 / 2) (!![1, 0, 0, 1 / 2; 0, 1, 0, 1 / 2; 0, 0, 1, 1 / 2; 0, 0, 0, 1] : Matrix (Fin 4) (Fin 4) ℝ) := by
    intro x
    simp [Fin.sum_univ_four, Matrix.mulVec, dotProduct]
    nlinarith [sq_nonneg (x 0 + x 3 / 2), sq_nonneg (x 1 + x 3 / 2), sq_nonneg (x 2 + x 3 / 2), sq_nonneg (x 3)]
  obtain ⟨v, h, -⟩ := mtx_vec_wedge_near junk (!![1, 0, 0, 1 / 2; 0, 1, 0, 1 / 2; 0, 0, 1, 1 / 2] : Matrix (Fin 3) (Fin 4) ℝ) [] [] 0 le_rfl
    (by rw [hW]; exact hc.det_ne (by norm_num)) (by
    rw [hW]
    refine pivotsOK_of_coercive hc (ρ := 2) ?_ ?_
    · intro i
      fin_cases i <;> simp [Fin.sum_univ_four] <;> norm_num
    · unfold invDelta
      norm_num)
  exact ⟨v, h⟩

/-- A level device with unit variances. -/
example : Coercive 1 ((levelIn 100 0 1 1).S 1 (Matrix.diagonal ![1, 1, 0, 1])) := by
  have h : pureQ (0 : V3) = 0 := by ext <;> simp [pureQ]
  have hp : (levelIn 100 0 1 1).prior 1 (Matrix.diagonal ![1, 1, 0, 1]) = Matrix.diagonal ![1, 1, 0, 1] := by
    simp only [KalmIn.prior, levelIn]
    rw [h, smul_zero, add_zero, rightMul_one]
    simp
  have hS : (levelIn 100 0 1 1).S 1 (Matrix.diagonal ![1, 1, 0, 1]) = Matrix.diagonal ![1, 5, 1, 1, 5, 1] := by
    rw [KalmIn.S, hp, (level_geom 100 0 1 1).2.2, KalmIn.noise]
    ext i j
    rw [Matrix.add_apply, Matrix.mul_apply, Fin.sum_univ_four]
    simp only [Matrix.transpose_apply, Matrix.mul_diagonal]
    fin_cases i <;> fin_cases j <;> simp [levelIn] <;> norm_num
  rw [hS]
  intro x
  simp only [Matrix.mulVec_diagonal, Fin.sum_univ_six]
  simp
  nlinarith [sq_nonneg (x 1), sq_nonneg (x 4)]

end Verif
