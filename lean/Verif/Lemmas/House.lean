import Mathlib.LinearAlgebra.Matrix.NonsingularInverse
import Mathlib.Data.Matrix.Block
import Mathlib.Analysis.SpecialFunctions.Pow.Real
import Verif.Lemmas.VecReal

/-! # Reflections and block matrices used by the QR decomposition -/

namespace Verif

open Out

variable {n d k s : ℕ}

/-! ### The reflection -/

/-- `-1` for a vector with negative first component, `1` otherwise. -/
noncomputable def hsign (x : Fin (s + 1) → ℝ) : ℝ := if x 0 < 0 then -1 else 1

/-- The mirror direction before normalisation. -/
noncomputable def hdir (x : Fin (s + 1) → ℝ) : Fin (s + 1) → ℝ :=
  x - Pi.single 0 (hsign x * Real.sqrt (x ⬝ᵥ x))

/-- The normalised mirror direction, zero if there is none. -/
noncomputable def hunit (x : Fin (s + 1) → ℝ) : Fin (s + 1) → ℝ :=
  open Classical in if hdir x ⬝ᵥ hdir x = 0 then 0 else fun i => hdir x i / Real.sqrt (hdir x ⬝ᵥ hdir x)

/-- The reflection. -/
noncomputable def houseMat (x : Fin (s + 1) → ℝ) : Matrix (Fin (s + 1)) (Fin (s + 1)) ℝ :=
  1 + (-2 : ℝ) • Matrix.vecMulVec (hunit x) (hunit x)

theorem houseMat_symm (x : Fin (s + 1) → ℝ) : (houseMat x).transpose = houseMat x := by
  unfold houseMat
  rw [Matrix.transpose_add, Matrix.transpose_smul, Matrix.transpose_one, Matrix.transpose_vecMulVec]

theorem hsign_sq (x : Fin (s + 1) → ℝ) : hsign x * hsign x = 1 := by
  unfold hsign
  split_ifs <;> norm_num

theorem dot_self_nonneg {m : ℕ} (x : Fin m → ℝ) : 0 ≤ x ⬝ᵥ x :=
  Finset.sum_nonneg fun i _ => mul_self_nonneg (x i)

theorem hunit_norm (x : Fin (s + 1) → ℝ) : hunit x = 0 ∨ hunit x ⬝ᵥ hunit x = 1 := by
  unfold hunit
  split_ifs with h
  · exact Or.inl rfl
  · right
    have hs := Real.mul_self_sqrt (dot_self_nonneg (hdir x))
    set D := hdir x ⬝ᵥ hdir x with hD
    have : ((fun i => hdir x i / Real.sqrt D) ⬝ᵥ fun i => hdir x i / Real.sqrt D) = D / (Real.sqrt D * Real.sqrt D) := by
      rw [hD]
      simp only [dotProduct]
      rw [Finset.sum_div]
      exact Finset.sum_congr rfl fun i _ => div_mul_div_comm _ _ _ _
    rw [this, hs, div_self h]

theorem houseMat_sq (x : Fin (s + 1) → ℝ) : houseMat x * houseMat x = 1 := by
  unfold houseMat
  rcases hunit_norm x with h | h
  · rw [h]
    simp
  · have hm : Matrix.vecMulVec (hunit x) (hunit x) * Matrix.vecMulVec (hunit x) (hunit x) =
        Matrix.vecMulVec (hunit x) (hunit x) := by
      rw [Matrix.vecMulVec_mul_vecMulVec, h, one_smul]
    rw [mul_add, add_mul, add_mul, one_mul, one_mul, mul_one, Matrix.smul_mul, Matrix.mul_smul, hm, smul_smul]
    module

theorem houseMat_mulVec (x : Fin (s + 1) → ℝ) :
    (houseMat x).mulVec x = Pi.single 0 (hsign x * Real.sqrt (x ⬝ᵥ x)) := by
  have hsq := Real.mul_self_sqrt (dot_self_nonneg x)
  have hss := hsign_sq x
  have hxe : hdir x ⬝ᵥ x = x ⬝ᵥ x - hsign x * Real.sqrt (x ⬝ᵥ x) * x 0 := by
    unfold hdir
    rw [sub_dotProduct, single_dotProduct]
  have hww : hdir x ⬝ᵥ hdir x = 2 * (hdir x ⬝ᵥ x) := by
    rw [hxe]
    conv_lhs =>
      unfold hdir
      rw [sub_dotProduct, dotProduct_sub, dotProduct_sub, single_dotProduct, single_dotProduct, dotProduct_single,
        Pi.single_eq_same]
    have : hsign x * Real.sqrt (x ⬝ᵥ x) * (hsign x * Real.sqrt (x ⬝ᵥ x)) = x ⬝ᵥ x := by
      rw [mul_mul_mul_comm, hss, hsq, one_mul]
    linarith
  have hmain : x - (houseMat x).mulVec x = hdir x := by
    unfold houseMat
    rw [Matrix.add_mulVec, Matrix.one_mulVec, Matrix.smul_mulVec, Matrix.vecMulVec_mulVec]
    unfold hunit
    split_ifs with h
    · have h0 : hdir x = 0 := dotProduct_self_eq_zero.1 h
      simp [h0]
    · have hs := Real.mul_self_sqrt (dot_self_nonneg (hdir x))
      set D := hdir x ⬝ᵥ hdir x with hD
      have h1 : ((fun i => hdir x i / Real.sqrt D) ⬝ᵥ x) = (hdir x ⬝ᵥ x) / Real.sqrt D := by
        simp only [dotProduct, Finset.sum_div]
        exact Finset.sum_congr rfl fun i _ => by ring
      have hne : Real.sqrt D ≠ 0 := fun h0 => h (by rw [← hs, h0, zero_mul])
      funext i
      simp only [Pi.sub_apply, Pi.add_apply, Pi.smul_apply, smul_eq_mul, MulOpposite.smul_eq_mul_unop,
        MulOpposite.unop_op]
      rw [h1]
      have : hdir x ⬝ᵥ x = Real.sqrt D * Real.sqrt D / 2 := by
        rw [hs, hww]
        ring
      rw [this]
      field_simp
      ring
  have : (houseMat x).mulVec x = x - hdir x := by
    rw [← hmain]
    abel
  rw [this]
  unfold hdir
  abel

/-! ### Block diagonal matrices -/

/-- The matrix with the identity of size `d` in the upper left and `H` in the lower right corner. -/
def augm (d : ℕ) (H : Matrix (Fin k) (Fin k) ℝ) : Matrix (Fin (d + k)) (Fin (d + k)) ℝ :=
  (Matrix.fromBlocks 1 0 0 H).submatrix finSumFinEquiv.symm finSumFinEquiv.symm

theorem augm_mul (d : ℕ) (H K : Matrix (Fin k) (Fin k) ℝ) : augm d H * augm d K = augm d (H * K) := by
  unfold augm
  rw [Matrix.submatrix_mul_equiv, Matrix.fromBlocks_multiply]
  simp

theorem augm_one (d : ℕ) : augm d (1 : Matrix (Fin k) (Fin k) ℝ) = 1 := by
  unfold augm
  rw [Matrix.fromBlocks_one, Matrix.submatrix_one_equiv]

theorem augm_transpose (d : ℕ) (H : Matrix (Fin k) (Fin k) ℝ) : (augm d H).transpose = augm d H.transpose := by
  unfold augm
  rw [Matrix.transpose_submatrix, Matrix.fromBlocks_transpose]
  simp

theorem augm_entry (d : ℕ) (H : Matrix (Fin k) (Fin k) ℝ) (i j : Fin (d + k)) :
    augm d H i j = if h : d ≤ i.val ∧ d ≤ j.val then H ⟨i.val - d, by omega⟩ ⟨j.val - d, by omega⟩
      else if i = j then 1 else 0 := by
  unfold augm
  refine Fin.addCases (fun i => ?_) (fun i => ?_) i <;> refine Fin.addCases (fun j => ?_) (fun j => ?_) j
  · rw [dif_neg (by simp)]
    simp [Matrix.one_apply]
  · rw [dif_neg (by simp), if_neg (by simp [Fin.ext_iff]; omega)]
    simp
  · rw [dif_neg (by simp), if_neg (by simp [Fin.ext_iff]; omega)]
    simp
  · rw [dif_pos (by simp)]
    simp

theorem augm_mulVec_low (d : ℕ) (H : Matrix (Fin k) (Fin k) ℝ) (x : Fin (d + k) → ℝ) (i : Fin d) :
    (augm d H).mulVec x (Fin.castAdd k i) = x (Fin.castAdd k i) := by
  simp [Matrix.mulVec, dotProduct, Fin.sum_univ_add, augm, Matrix.one_apply]

theorem augm_mulVec_high (d : ℕ) (H : Matrix (Fin k) (Fin k) ℝ) (x : Fin (d + k) → ℝ) (i : Fin k) :
    (augm d H).mulVec x (Fin.natAdd d i) = H.mulVec (fun l => x (Fin.natAdd d l)) i := by
  simp [Matrix.mulVec, dotProduct, Fin.sum_univ_add, augm]

theorem mul_augm_low (d : ℕ) (H : Matrix (Fin k) (Fin k) ℝ) (M : Matrix (Fin n) (Fin (d + k)) ℝ) (i : Fin n) (j : Fin d) :
    (M * augm d H) i (Fin.castAdd k j) = M i (Fin.castAdd k j) := by
  simp [Matrix.mul_apply, Fin.sum_univ_add, augm, Matrix.one_apply]

end Verif
