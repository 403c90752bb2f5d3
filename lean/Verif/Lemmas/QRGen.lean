import Verif.Lemmas.QRConv
import Mathlib.LinearAlgebra.Matrix.Transvection
import Mathlib.LinearAlgebra.Matrix.Block
import Mathlib.Analysis.SpecificLimits.Normed
import Mathlib.Data.Fin.Tuple.Sort
import Mathlib.LinearAlgebra.Eigenspace.Basic

/-!
# Convergence of the QR iteration for matrices whose eigenvalues have different absolute values

Pure linear algebra, no model. `A = X Λ X⁻¹`; after a Gaussian elimination without row exchanges the rows of `X⁻¹` have different leading
columns, `L X⁻¹ = W`. So `A^k = X F_k Λ^k W` with `F_k → 1`, and up to the order of the columns the factor `Λ^k W` is upper triangular.
-/

namespace Verif

open Filter Topology Matrix

variable {n : ℕ}

/-- The number of leading zeros, over all rows. -/
noncomputable def leadZeros (M : Matrix (Fin n) (Fin n) ℝ) : ℕ := by
  classical exact ∑ i, (Finset.univ.filter fun c : Fin n => ∀ c' ≤ c, M i c' = 0).card

theorem leadZeros_le (M : Matrix (Fin n) (Fin n) ℝ) : leadZeros M ≤ n * n := by
  classical
  unfold leadZeros
  calc _ ≤ ∑ _i : Fin n, n := Finset.sum_le_sum fun i _ => (Finset.card_filter_le _ _).trans (by simp)
    _ = n * n := by simp

/-- Lower triangular with ones on the diagonal. -/
def UnitLower (L : Matrix (Fin n) (Fin n) ℝ) : Prop := (∀ i, L i i = 1) ∧ ∀ i j, i < j → L i j = 0

theorem UnitLower.det {L : Matrix (Fin n) (Fin n) ℝ} (h : UnitLower L) : L.det = 1 := by
  rw [Matrix.det_of_isLowerTriangular L fun i j hij => h.2 i j hij]
  exact Finset.prod_eq_one fun i _ => h.1 i

theorem UnitLower.transvection {L : Matrix (Fin n) (Fin n) ℝ} (h : UnitLower L) {i i' : Fin n} (hi : i < i') (t : ℝ) :
    UnitLower (Matrix.transvection i' i t * L) := by
  constructor
  · intro a
    by_cases ha : a = i'
    · subst ha
      rw [Matrix.transvection_mul_apply_same, h.1, h.2 i a hi, mul_zero, add_zero]
    · rw [Matrix.transvection_mul_apply_of_ne _ _ _ _ ha, h.1]
  · intro a b hab
    by_cases ha : a = i'
    · subst ha
      rw [Matrix.transvection_mul_apply_same, h.2 a b hab, h.2 i b (hi.trans hab), mul_zero, add_zero]
    · rw [Matrix.transvection_mul_apply_of_ne _ _ _ _ ha, h.2 a b hab]

/-- Gaussian elimination without row exchanges: the rows get different leading columns. -/
theorem bruhat (Z : Matrix (Fin n) (Fin n) ℝ) (hZ : Z.det ≠ 0) :
    ∃ (L : Matrix (Fin n) (Fin n) ℝ) (σ : Equiv.Perm (Fin n)), UnitLower L ∧ ∀ i c, c < σ i → (L * Z) i c = 0 := by
  classical
  -- a lower triangular matrix for which the number of leading zeros is maximal
  obtain ⟨L, hL, hmax⟩ : ∃ L : Matrix (Fin n) (Fin n) ℝ, UnitLower L ∧ ∀ L', UnitLower L' → leadZeros (L' * Z) ≤ leadZeros (L * Z) := by
    by_contra hcon
    push Not at hcon
    have hone : UnitLower (1 : Matrix (Fin n) (Fin n) ℝ) := ⟨fun i => by simp, fun i j h => Matrix.one_apply_ne h.ne⟩
    have : ∀ N : ℕ, ∃ L : Matrix (Fin n) (Fin n) ℝ, UnitLower L ∧ N ≤ leadZeros (L * Z) := by
      intro N
      induction N with
      | zero => exact ⟨1, hone, Nat.zero_le _⟩
      | succ N ih =>
        obtain ⟨L, hL, h⟩ := ih
        obtain ⟨L', hL', h'⟩ := hcon L hL
        exact ⟨L', hL', by omega⟩
    obtain ⟨L, -, h⟩ := this (n * n + 1)
    have := leadZeros_le (L * Z)
    omega
  have hdet : (L * Z).det ≠ 0 := by rw [Matrix.det_mul, hL.det, one_mul]; exact hZ
  have hlp : ∀ i, ∃ c, (L * Z) i c ≠ 0 ∧ ∀ c' < c, (L * Z) i c' = 0 := by
    intro i
    have hne : ∃ c, (L * Z) i c ≠ 0 := by
      by_contra h
      push Not at h
      exact hdet (Matrix.det_eq_zero_of_row_eq_zero i h)
    obtain ⟨c, hc, hc'⟩ := wellFounded_lt.has_min {c | (L * Z) i c ≠ 0} hne
    exact ⟨c, hc, fun c' h => by by_contra h2; exact hc' c' h2 h⟩
  choose lp hlp1 hlp2 using hlp
  have hinj : ∀ i i', i < i' → lp i ≠ lp i' := by
    intro i i' hii heq
    set M := L * Z with hM
    set t := -(M i' (lp i) / M i (lp i)) with ht
    have hlt : leadZeros M < leadZeros (Matrix.transvection i' i t * L * Z) := by
      rw [Matrix.mul_assoc, ← hM]
      unfold leadZeros
      refine Finset.sum_lt_sum (fun a _ => ?_) ⟨i', Finset.mem_univ _, ?_⟩
      · refine Finset.card_le_card fun c hc => ?_
        simp only [Finset.mem_filter, Finset.mem_univ, true_and] at hc ⊢
        intro c' hc'
        by_cases ha : a = i'
        · subst ha
          have hcl : c' < lp i := by
            rw [heq]
            by_contra h
            exact hlp1 a (hc _ ((not_lt.1 h).trans hc'))
          rw [Matrix.transvection_mul_apply_same, hc c' hc', hlp2 i c' hcl, mul_zero, add_zero]
        · rw [Matrix.transvection_mul_apply_of_ne _ _ _ _ ha, hc c' hc']
      · refine Finset.card_lt_card (Finset.ssubset_iff_of_subset ?_ |>.2 ⟨lp i, ?_, ?_⟩)
        · intro c hc
          simp only [Finset.mem_filter, Finset.mem_univ, true_and] at hc ⊢
          intro c' hc'
          have hcl : c' < lp i := by
            rw [heq]
            by_contra h
            exact hlp1 i' (hc _ ((not_lt.1 h).trans hc'))
          rw [Matrix.transvection_mul_apply_same, hc c' hc', hlp2 i c' hcl, mul_zero, add_zero]
        · simp only [Finset.mem_filter, Finset.mem_univ, true_and]
          intro c' hc'
          rw [Matrix.transvection_mul_apply_same]
          rcases hc'.lt_or_eq with h | h
          · rw [hlp2 i c' h, hlp2 i' c' (heq ▸ h), mul_zero, add_zero]
          · rw [h, ht]
            have := hlp1 i
            field_simp
            ring
        · simp only [Finset.mem_filter, Finset.mem_univ, true_and, not_forall]
          exact ⟨lp i, le_rfl, heq ▸ hlp1 i'⟩
    exact absurd (hmax _ (hL.transvection hii t)) (not_le.2 hlt)
  have hlpinj : Function.Injective lp := by
    intro i i' h
    rcases lt_trichotomy i i' with h' | h' | h'
    · exact absurd h (hinj i i' h')
    · exact h'
    · exact absurd h.symm (hinj i' i h')
  exact ⟨L, Equiv.ofBijective lp (Finite.injective_iff_bijective.1 hlpinj), hL, fun i c hc => hlp2 i c hc⟩

/-- The powers of the first matrix and the iterates. -/
theorem iter_power (A : ℕ → Matrix (Fin n) (Fin n) ℝ) (hs : ∀ k, QRStep (A k) (A (k + 1))) (k : ℕ) :
    ∃ Q R : Matrix (Fin n) (Fin n) ℝ, Q * Qᵀ = 1 ∧ Qᵀ * Q = 1 ∧ R.BlockTriangular id ∧ A 0 ^ k = Q * R ∧ A k = Qᵀ * A 0 * Q := by
  induction k with
  | zero => exact ⟨1, 1, by simp, by simp, Matrix.blockTriangular_one, by simp, by simp⟩
  | succ k ih =>
    obtain ⟨Q, R, hQ, hQ', hR, hpow, hA⟩ := ih
    obtain ⟨q, r, hq, hq', hr, h1, h2⟩ := hs k
    have hr' : r = qᵀ * A k := by rw [← h1, ← Matrix.mul_assoc, hq', Matrix.one_mul]
    refine ⟨Q * q, r * R, ?_, ?_, ?_, ?_, ?_⟩
    · rw [Matrix.transpose_mul, ← Matrix.mul_assoc, Matrix.mul_assoc Q, hq, Matrix.mul_one, hQ]
    · rw [Matrix.transpose_mul, ← Matrix.mul_assoc, Matrix.mul_assoc qᵀ, hQ', Matrix.mul_one, hq']
    · exact Matrix.BlockTriangular.mul (fun i j h => hr i j h) hR
    · rw [← Matrix.mul_assoc, Matrix.mul_assoc Q, h1, hA, pow_succ', hpow]
      simp only [← Matrix.mul_assoc]
      rw [hQ, Matrix.one_mul]
    · rw [h2, hr', hA, Matrix.transpose_mul]
      simp only [Matrix.mul_assoc]

theorem upper_mul_diag {M N : Matrix (Fin n) (Fin n) ℝ} (hM : M.BlockTriangular id) (hN : N.BlockTriangular id) (i : Fin n) :
    (M * N) i i = M i i * N i i := by
  rw [Matrix.mul_apply, Finset.sum_eq_single i]
  · intro l _ hl
    rcases lt_or_gt_of_ne hl with h | h
    · rw [hM (i := i) (j := l) h, zero_mul]
    · rw [hN (i := l) (j := i) h, mul_zero]
  · simp

/-- The part of a matrix between equal eigenvalues. -/
noncomputable def equalPart (L : Matrix (Fin n) (Fin n) ℝ) (l : Fin n → ℝ) : Matrix (Fin n) (Fin n) ℝ :=
  open Classical in Matrix.of fun i j => if l i = l j then L i j else 0

theorem equalPart_comm (L : Matrix (Fin n) (Fin n) ℝ) (l : Fin n → ℝ) : equalPart L l * Matrix.diagonal l = Matrix.diagonal l * equalPart L l := by
  ext i j
  rw [Matrix.mul_diagonal, Matrix.diagonal_mul]
  simp only [equalPart, Matrix.of_apply]
  split_ifs with h
  · rw [h, mul_comm]
  · simp

/-- Conjugating a unit lower triangular matrix with descending powers. -/
theorem lower_tendsto {L : Matrix (Fin n) (Fin n) ℝ} (hL : UnitLower L) (l : Fin n → ℝ) (h0 : ∀ i, l i ≠ 0)
    (hl : ∀ i j, i < j → |l j| < |l i| ∨ l j = l i) :
    Tendsto (fun k : ℕ => Matrix.diagonal (fun i => l i ^ k) * L * Matrix.diagonal (fun i => (l i ^ k)⁻¹)) atTop (𝓝 (equalPart L l)) := by
  refine tendsto_pi_nhds.2 fun i => tendsto_pi_nhds.2 fun j => ?_
  have e : ∀ k : ℕ, (Matrix.diagonal (fun i => l i ^ k) * L * Matrix.diagonal (fun i => (l i ^ k)⁻¹)) i j = L i j * (l i / l j) ^ k := by
    intro k
    rw [Matrix.mul_diagonal, Matrix.diagonal_mul, div_pow]
    ring
  simp only [e, equalPart, Matrix.of_apply]
  by_cases heq : l i = l j
  · rw [if_pos heq, heq, div_self (h0 j)]
    simp
  rw [if_neg heq]
  rcases lt_trichotomy i j with h | h | h
  · rw [hL.2 i j h]
    simp
  · exact absurd (congrArg l h) heq
  · rw [← mul_zero (L i j)]
    refine Tendsto.const_mul _ (tendsto_pow_atTop_nhds_zero_of_abs_lt_one ?_)
    rw [abs_div, div_lt_one (abs_pos.2 (h0 j))]
    exact (hl j i h).resolve_right heq

theorem UnitLower.inv {L : Matrix (Fin n) (Fin n) ℝ} (h : UnitLower L) : UnitLower L⁻¹ := by
  have hb : Lᵀ.BlockTriangular id := fun i j hij => h.2 j i hij
  have hdet : IsUnit L.det := by rw [h.det]; exact isUnit_one
  have : Invertible L := Matrix.invertibleOfIsUnitDet L hdet
  have : Invertible Lᵀ := Matrix.invertibleTranspose L
  have hi := Matrix.blockTriangular_inv_of_blockTriangular hb
  have hup : ∀ i j, i < j → L⁻¹ i j = 0 := by
    intro i j hij
    have := hi (i := j) (j := i) hij
    rw [← Matrix.transpose_nonsing_inv, Matrix.transpose_apply] at this
    exact this
  refine ⟨fun i => ?_, hup⟩
  have h1 := upper_mul_diag hb hi i
  rw [Matrix.mul_nonsing_inv _ (by rw [Matrix.det_transpose]; exact hdet), Matrix.one_apply_eq, Matrix.transpose_apply, h.1, one_mul,
    ← Matrix.transpose_nonsing_inv, Matrix.transpose_apply] at h1
  exact h1.symm

/-- The QR iteration of a diagonalisable matrix without opposite eigenvalues; the eigenvalues are sorted. -/
theorem qr_tendsto_sorted (A : ℕ → Matrix (Fin n) (Fin n) ℝ) (hs : ∀ k, QRStep (A k) (A (k + 1))) (X : Matrix (Fin n) (Fin n) ℝ)
    (hX : X.det ≠ 0) (l : Fin n → ℝ) (h0 : ∀ i, l i ≠ 0) (hl : ∀ i j, i < j → |l j| < |l i| ∨ l j = l i)
    (hA : A 0 * X = X * Matrix.diagonal l) :
    ∃ σ : Equiv.Perm (Fin n), (∀ i, Tendsto (fun k => A k i i) atTop (𝓝 (l (σ i)))) ∧
      ∀ i j, j < i → Tendsto (fun k => A k i j) atTop (𝓝 0) := by
  classical
  have hXu : IsUnit X.det := isUnit_iff_ne_zero.2 hX
  have hXi : X * X⁻¹ = 1 := Matrix.mul_nonsing_inv _ hXu
  have hXi' : X⁻¹ * X = 1 := Matrix.nonsing_inv_mul _ hXu
  obtain ⟨L, σ, hL, hW⟩ := bruhat X⁻¹ (by rw [Matrix.det_nonsing_inv]; exact (isUnit_iff_ne_zero.1 (by simpa using hXu)))
  have hLu : IsUnit L.det := by rw [hL.det]; exact isUnit_one
  choose Q R hQ hQ' hR hpow hAk using iter_power A hs
  set D : ℕ → Matrix (Fin n) (Fin n) ℝ := fun k => Matrix.diagonal fun i => l i ^ k with hD
  set D' : ℕ → Matrix (Fin n) (Fin n) ℝ := fun k => Matrix.diagonal fun i => (l i ^ k)⁻¹ with hD'
  have hDD : ∀ k, D k * D' k = 1 := by
    intro k
    simp only [hD, hD', Matrix.diagonal_mul_diagonal]
    rw [← Matrix.diagonal_one]
    congr 1
    funext i
    exact mul_inv_cancel₀ (pow_ne_zero _ (h0 i))
  have hDD' : ∀ k, D' k * D k = 1 := fun k => mul_eq_one_comm.1 (hDD k)
  set F : ℕ → Matrix (Fin n) (Fin n) ℝ := fun k => D k * L⁻¹ * D' k with hF
  set F' : ℕ → Matrix (Fin n) (Fin n) ℝ := fun k => D k * L * D' k with hF'
  have hFF : ∀ k, F k * F' k = 1 := by
    intro k
    calc F k * F' k = D k * L⁻¹ * (D' k * D k) * L * D' k := by simp only [hF, hF', Matrix.mul_assoc]
      _ = D k * (L⁻¹ * L) * D' k := by rw [hDD', Matrix.mul_one, Matrix.mul_assoc (D k)]
      _ = 1 := by rw [Matrix.nonsing_inv_mul _ hLu, Matrix.mul_one, hDD]
  have hFF' : ∀ k, F' k * F k = 1 := fun k => mul_eq_one_comm.1 (hFF k)
  have hFlim : Tendsto F atTop (𝓝 (equalPart L⁻¹ l)) := lower_tendsto hL.inv l h0 hl
  have hFlim' : Tendsto F' atTop (𝓝 (equalPart L l)) := lower_tendsto hL l h0 hl
  have hA0 : A 0 = X * Matrix.diagonal l * X⁻¹ := by rw [← hA, Matrix.mul_assoc, hXi, Matrix.mul_one]
  have hApow : ∀ k, A 0 ^ k = X * D k * X⁻¹ := by
    intro k
    induction k with
    | zero => simp [hD, hXi]
    | succ k ih =>
      rw [pow_succ, ih, hA0]
      calc X * D k * X⁻¹ * (X * Matrix.diagonal l * X⁻¹) = X * D k * (X⁻¹ * X) * Matrix.diagonal l * X⁻¹ := by simp only [Matrix.mul_assoc]
        _ = X * (D k * Matrix.diagonal l) * X⁻¹ := by rw [hXi', Matrix.mul_one, Matrix.mul_assoc X]
        _ = X * D (k + 1) * X⁻¹ := by
          simp only [hD, Matrix.diagonal_mul_diagonal, pow_succ]
  -- `T k`, with its columns in the order of the leading columns, is upper triangular
  set T : ℕ → Matrix (Fin n) (Fin n) ℝ := fun k => (Q k)ᵀ * X * F k with hT
  set T' : ℕ → Matrix (Fin n) (Fin n) ℝ := fun k => F' k * X⁻¹ * Q k with hT'
  have hTT : ∀ k, T k * T' k = 1 := by
    intro k
    calc T k * T' k = (Q k)ᵀ * X * (F k * F' k) * X⁻¹ * Q k := by simp only [hT, hT', Matrix.mul_assoc]
      _ = (Q k)ᵀ * (X * X⁻¹) * Q k := by rw [hFF, Matrix.mul_one, Matrix.mul_assoc (Q k)ᵀ]
      _ = 1 := by rw [hXi, Matrix.mul_one, hQ']
  have hTR : ∀ k, T k * D k * (L * X⁻¹) = R k := by
    intro k
    calc T k * D k * (L * X⁻¹) = (Q k)ᵀ * X * D k * L⁻¹ * (D' k * D k) * L * X⁻¹ := by simp only [hT, hF, Matrix.mul_assoc]
      _ = (Q k)ᵀ * (X * D k * (L⁻¹ * L) * X⁻¹) := by rw [hDD', Matrix.mul_one]; simp only [Matrix.mul_assoc]
      _ = R k := by
        rw [Matrix.nonsing_inv_mul _ hLu, Matrix.mul_one, ← hApow, hpow, ← Matrix.mul_assoc, hQ', Matrix.one_mul]
  have hWdet : (L * X⁻¹).det ≠ 0 := by
    rw [Matrix.det_mul, hL.det, one_mul, Matrix.det_nonsing_inv]
    exact isUnit_iff_ne_zero.1 (by simpa using hXu)
  -- reorder
  set U := (L * X⁻¹).submatrix σ.symm id with hU
  have hUtri : U.BlockTriangular id := by
    intro i j hij
    rw [hU, Matrix.submatrix_apply]
    exact hW _ _ (by rw [Equiv.apply_symm_apply]; exact hij)
  have hUinv : U * (L * X⁻¹)⁻¹.submatrix id σ.symm = 1 := by
    rw [hU, ← Matrix.submatrix_mul _ _ σ.symm id σ.symm Function.bijective_id, Matrix.mul_nonsing_inv _ (isUnit_iff_ne_zero.2 hWdet),
      Matrix.submatrix_one_equiv]
  have hUu : IsUnit U.det := (Matrix.isUnit_iff_isUnit_det _).1 ⟨⟨U, _, hUinv, mul_eq_one_comm.1 hUinv⟩, rfl⟩
  have : Invertible U := Matrix.invertibleOfIsUnitDet U hUu
  have hUi := Matrix.blockTriangular_inv_of_blockTriangular hUtri
  set S : ℕ → Matrix (Fin n) (Fin n) ℝ := fun k => (T k).submatrix id σ.symm with hS
  set S' : ℕ → Matrix (Fin n) (Fin n) ℝ := fun k => (T' k).submatrix σ.symm id with hS'
  have hSS : ∀ k, S k * S' k = 1 := by
    intro k
    rw [hS, hS', ← Matrix.submatrix_mul _ _ id σ.symm id σ.symm.bijective, hTT]
    rfl
  have hStri : ∀ k, (S k).BlockTriangular id := by
    intro k
    have h1 : S k * Matrix.diagonal (fun i => l (σ.symm i) ^ k) * U = R k := by
      rw [← hTR k]
      have : Matrix.diagonal (fun i => l (σ.symm i) ^ k) = (D k).submatrix σ.symm σ.symm := by
        rw [hD, Matrix.submatrix_diagonal_equiv]
        rfl
      rw [this, hS, hU, ← Matrix.submatrix_mul _ _ id σ.symm σ.symm σ.symm.bijective, ← Matrix.submatrix_mul _ _ id σ.symm id σ.symm.bijective]
      rfl
    have h2 : S k = R k * U⁻¹ * Matrix.diagonal (fun i => (l (σ.symm i) ^ k)⁻¹) := by
      rw [← h1, Matrix.mul_assoc _ U, Matrix.mul_nonsing_inv _ hUu, Matrix.mul_one, Matrix.mul_assoc, Matrix.diagonal_mul_diagonal]
      have : (Matrix.diagonal fun i => l (σ.symm i) ^ k * (l (σ.symm i) ^ k)⁻¹) = (1 : Matrix (Fin n) (Fin n) ℝ) := by
        rw [← Matrix.diagonal_one]
        congr 1
        funext i
        exact mul_inv_cancel₀ (pow_ne_zero _ (h0 _))
      rw [this, Matrix.mul_one]
    rw [h2]
    exact ((hR k).mul hUi).mul (Matrix.blockTriangular_diagonal _)
  have hSi : ∀ k, (S' k).BlockTriangular id := by
    intro k
    have hu : IsUnit (S k).det := (Matrix.isUnit_iff_isUnit_det _).1 ⟨⟨S k, _, hSS k, mul_eq_one_comm.1 (hSS k)⟩, rfl⟩
    have : Invertible (S k) := Matrix.invertibleOfIsUnitDet _ hu
    have h1 := Matrix.blockTriangular_inv_of_blockTriangular (hStri k)
    rwa [Matrix.inv_eq_right_inv (hSS k)] at h1
  set B : ℕ → Matrix (Fin n) (Fin n) ℝ := fun k => S k * Matrix.diagonal (fun i => l (σ.symm i)) * S' k with hB
  have hBtri : ∀ k, (B k).BlockTriangular id := fun k => ((hStri k).mul (Matrix.blockTriangular_diagonal _)).mul (hSi k)
  have hBdiag : ∀ k i, B k i i = l (σ.symm i) := by
    intro k i
    rw [hB]
    dsimp only
    rw [upper_mul_diag ((hStri k).mul (Matrix.blockTriangular_diagonal _)) (hSi k), Matrix.mul_diagonal, mul_right_comm,
      ← upper_mul_diag (hStri k) (hSi k), hSS, Matrix.one_apply_eq, one_mul]
  have hBT : ∀ k, B k = T k * Matrix.diagonal l * T' k := by
    intro k
    have : Matrix.diagonal (fun i => l (σ.symm i)) = (Matrix.diagonal l).submatrix σ.symm σ.symm := by
      rw [Matrix.submatrix_diagonal_equiv]
      rfl
    rw [hB]
    dsimp only
    rw [this, hS, hS', ← Matrix.submatrix_mul _ _ id σ.symm σ.symm σ.symm.bijective, ← Matrix.submatrix_mul _ _ id σ.symm id σ.symm.bijective]
    rfl
  set G : ℕ → Matrix (Fin n) (Fin n) ℝ := fun k => X * (Matrix.diagonal l - F k * Matrix.diagonal l * F' k) * X⁻¹ with hG
  have hGlim : Tendsto G atTop (𝓝 0) := by
    have h0 : equalPart L⁻¹ l * equalPart L l = 1 := by
      have := hFlim.mul hFlim'
      simp only [hFF] at this
      exact (tendsto_nhds_unique tendsto_const_nhds this).symm
    have h1 : Tendsto (fun k => F k * Matrix.diagonal l * F' k) atTop (𝓝 (equalPart L⁻¹ l * Matrix.diagonal l * equalPart L l)) :=
      (hFlim.mul tendsto_const_nhds).mul hFlim'
    rw [equalPart_comm, Matrix.mul_assoc, h0, Matrix.mul_one] at h1
    have h2 := ((tendsto_const_nhds (x := X)).mul ((tendsto_const_nhds (x := Matrix.diagonal l)).sub h1)).mul (tendsto_const_nhds (x := X⁻¹))
    rw [sub_self, Matrix.mul_zero, Matrix.zero_mul] at h2
    exact h2
  have hsplit : ∀ k, A k = B k + (Q k)ᵀ * G k * Q k := by
    intro k
    rw [hAk, hBT, hA0]
    simp only [hT, hT', hG, Matrix.mul_sub, Matrix.sub_mul, Matrix.mul_assoc]
    abel
  have hQb : ∀ k i j, |Q k i j| ≤ 1 := by
    intro k i j
    rw [← sq_le_one_iff_abs_le_one]
    have h1 : (Q k * (Q k)ᵀ) i i = 1 := by rw [hQ, Matrix.one_apply_eq]
    rw [Matrix.mul_apply] at h1
    rw [← h1]
    refine le_trans (le_of_eq ?_) (Finset.single_le_sum (f := fun m => Q k i m * (Q k)ᵀ m i)
      (fun m _ => by rw [Matrix.transpose_apply]; exact mul_self_nonneg _) (Finset.mem_univ j))
    rw [Matrix.transpose_apply, sq]
  have herr : ∀ i j, Tendsto (fun k => ((Q k)ᵀ * G k * Q k) i j) atTop (𝓝 0) := by
    intro i j
    simp only [Matrix.mul_apply, Matrix.transpose_apply]
    rw [show (0 : ℝ) = ∑ _b : Fin n, (0 : ℝ) by simp]
    refine tendsto_finsetSum _ fun b _ => ?_
    have hbd : ∀ a c, IsBoundedUnder (· ≤ ·) atTop (norm ∘ fun k => Q k a c) := fun a c =>
      isBoundedUnder_of ⟨1, fun k => by simpa using hQb k a c⟩
    refine Tendsto.zero_mul_isBoundedUnder_le ?_ (hbd b j)
    rw [show (0 : ℝ) = ∑ _a : Fin n, (0 : ℝ) by simp]
    refine tendsto_finsetSum _ fun a _ => ?_
    simp only [mul_comm (Q _ a i)]
    exact (tendsto_pi_nhds.1 (tendsto_pi_nhds.1 hGlim a) b).zero_mul_isBoundedUnder_le (hbd a i)
  refine ⟨σ.symm, fun i => ?_, fun i j hij => ?_⟩
  · have h1 := (herr i i).const_add (l (σ.symm i))
    rw [add_zero] at h1
    refine h1.congr fun k => ?_
    rw [hsplit k, Matrix.add_apply, hBdiag]
  · refine (herr i j).congr fun k => ?_
    rw [hsplit k, Matrix.add_apply, hBtri k (i := i) (j := j) hij, zero_add]

/-- The QR iteration of a diagonalisable matrix of which no two eigenvalues add up to zero. -/
theorem qr_tendsto_diag (A : ℕ → Matrix (Fin n) (Fin n) ℝ) (hs : ∀ k, QRStep (A k) (A (k + 1))) (X : Matrix (Fin n) (Fin n) ℝ)
    (hX : X.det ≠ 0) (l : Fin n → ℝ) (hl : ∀ i j, l i + l j ≠ 0) (hA : A 0 * X = X * Matrix.diagonal l) :
    ∃ σ : Equiv.Perm (Fin n), (∀ i, Tendsto (fun k => A k i i) atTop (𝓝 (l (σ i)))) ∧
      ∀ i j, j < i → Tendsto (fun k => A k i j) atTop (𝓝 0) := by
  set τ := Tuple.sort fun i => -|l i|
  have hmono : Monotone ((fun i => -|l i|) ∘ τ) := Tuple.monotone_sort _
  have hdesc : ∀ i j, i < j → |l (τ j)| < |l (τ i)| ∨ l (τ j) = l (τ i) := by
    intro i j hij
    have h1 := hmono hij.le
    simp only [Function.comp] at h1
    by_cases h : |l (τ j)| = |l (τ i)|
    · right
      rcases abs_eq_abs.1 h with h' | h'
      · exact h'
      · exact absurd (by rw [h']; ring) (hl (τ j) (τ i))
    · left
      exact lt_of_le_of_ne (by linarith) h
  have hdet : (X.submatrix id τ).det ≠ 0 := by
    rw [Matrix.det_permute']
    refine mul_ne_zero ?_ hX
    rcases Int.units_eq_one_or (Equiv.Perm.sign τ) with h | h <;> simp [h]
  have hmul : A 0 * X.submatrix id τ = X.submatrix id τ * Matrix.diagonal fun i => l (τ i) := by
    ext a i
    have := congrFun (congrFun hA a) (τ i)
    rw [Matrix.mul_diagonal] at this
    rw [Matrix.mul_diagonal, Matrix.submatrix_apply, id_eq, ← this]
    rfl
  obtain ⟨σ, h1, h2⟩ := qr_tendsto_sorted A hs (X.submatrix id τ) hdet (fun i => l (τ i)) (fun i h => hl (τ i) (τ i) (by rw [h]; ring)) hdesc hmul
  exact ⟨σ.trans τ, h1, h2⟩

theorem charpoly_of_diag {A X : Matrix (Fin n) (Fin n) ℝ} (hX : X.det ≠ 0) {l : Fin n → ℝ} (hA : A * X = X * Matrix.diagonal l) :
    A.charpoly = ∏ i, (Polynomial.X - Polynomial.C (l i)) := by
  have hXu : IsUnit X.det := isUnit_iff_ne_zero.2 hX
  have : A = X * Matrix.diagonal l * X⁻¹ := by rw [← hA, Matrix.mul_assoc, Matrix.mul_nonsing_inv _ hXu, Matrix.mul_one]
  rw [this, Matrix.charpoly_mul_comm, ← Matrix.mul_assoc, Matrix.nonsing_inv_mul _ hXu, Matrix.one_mul, Matrix.charpoly_diagonal]

/-- A matrix with different real eigenvalues is diagonalisable. -/
theorem diag_of_charpoly {A : Matrix (Fin n) (Fin n) ℝ} {l : Fin n → ℝ} (hinj : Function.Injective l)
    (hA : A.charpoly = ∏ i, (Polynomial.X - Polynomial.C (l i))) :
    ∃ X : Matrix (Fin n) (Fin n) ℝ, X.det ≠ 0 ∧ A * X = X * Matrix.diagonal l := by
  have hev : ∀ i, ∃ v : Fin n → ℝ, v ≠ 0 ∧ A.mulVec v = l i • v := by
    intro i
    have hx : A.charpoly.eval (l i) = 0 := by
      rw [hA, Polynomial.eval_prod]
      exact Finset.prod_eq_zero (Finset.mem_univ i) (by simp)
    rw [Matrix.eval_charpoly] at hx
    obtain ⟨v, hv, h⟩ := Matrix.exists_mulVec_eq_zero_iff.2 hx
    rw [Matrix.sub_mulVec, sub_eq_zero, Matrix.scalar_apply, ← Matrix.smul_one_eq_diagonal, Matrix.smul_mulVec, Matrix.one_mulVec] at h
    exact ⟨v, hv, h.symm⟩
  choose v hv hAv using hev
  have hli : LinearIndependent ℝ v := by
    refine Module.End.eigenvectors_linearIndependent' (Matrix.toLin' A) l hinj _ fun i => ?_
    exact Module.End.hasEigenvector_iff.2 ⟨Module.End.mem_eigenspace_iff.2 (by rw [Matrix.toLin'_apply]; exact hAv _), hv _⟩
  refine ⟨Matrix.of fun a i => v i a, ?_, ?_⟩
  · exact isUnit_iff_ne_zero.1 ((Matrix.isUnit_iff_isUnit_det _).1 (Matrix.linearIndependent_cols_iff_isUnit.1 hli))
  · ext a i
    rw [Matrix.mul_diagonal, Matrix.mul_apply]
    have := congrFun (hAv i) a
    rw [Pi.smul_apply, smul_eq_mul, Matrix.mulVec, dotProduct] at this
    simp only [Matrix.of_apply]
    rw [this, mul_comm]

/-- A symmetric matrix is diagonalisable. -/
theorem diag_of_symm {A : Matrix (Fin n) (Fin n) ℝ} (h : Aᵀ = A) :
    ∃ (X : Matrix (Fin n) (Fin n) ℝ) (l : Fin n → ℝ), X.det ≠ 0 ∧ A * X = X * Matrix.diagonal l := by
  have hA : A.IsHermitian := by
    rw [Matrix.IsHermitian, Matrix.conjTranspose_eq_transpose_of_trivial, h]
  have hspec := hA.spectral_theorem
  rw [Unitary.conjStarAlgAut_apply] at hspec
  set X : Matrix (Fin n) (Fin n) ℝ := hA.eigenvectorUnitary.1 with hX
  have hu : star X * X = 1 := by
    rw [hX]
    exact Unitary.coe_star_mul_self hA.eigenvectorUnitary
  refine ⟨X, hA.eigenvalues, ?_, ?_⟩
  · exact isUnit_iff_ne_zero.1 ((Matrix.isUnit_iff_isUnit_det _).1 ⟨⟨X, star X, mul_eq_one_comm.1 hu, hu⟩, rfl⟩)
  · conv_lhs => rw [hspec]
    rw [Matrix.mul_assoc]
    refine Eq.trans (congrArg _ hu) ?_
    rw [Matrix.mul_one]
    rfl

end Verif
