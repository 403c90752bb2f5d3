import Verif.Props.Matrices5
import Verif.Lemmas.Rref

/-!
# The inverse, when nothing tiny occurs (C26)
-/

set_option linter.unusedSectionVars false

namespace Verif

open Out Matrix

variable {n : ℕ}

/-- The run of `zsl_mtx_inv` on an invertible matrix, with an invariant of the elimination. -/
theorem mtxInv_invariant (junk : ℕ → XR) (A B : Matrix (Fin n) (Fin n) ℝ) (t u : List XR) (hn : 0 < n) (h3 : n ≠ 3) (hdet : A.det ≠ 0)
    (I : ℕ → Matrix (Fin n) (Fin n) ℝ → Matrix (Fin n) (Fin n) ℝ → Prop) (h0 : I 0 A 1)
    (hI : ∀ (k : Fin n) M N Q, I k M N → PivotRow M k Q →
      I (k.val + 1) (stepMat (Q * M) k * (Q * M)) (stepMat (Q * M) k * (Q * N))) :
    ∃ M N, I n M N ∧ mtxInv junk (mat A t) (mat B u) = ok (0, mat N u) := by
  obtain ⟨M₀, hM₀⟩ := uninit_eq junk n n
  have hcopy : mtxCopy (Mtx.uninit junk n n) (mat A t) = ok (0, mat A []) := by
    rw [hM₀]
    exact mtx_copy_correct _ _ _ _
  obtain ⟨n', rfl⟩ := Nat.exists_eq_succ_of_ne_zero (by omega : n ≠ 0)
  obtain ⟨M, N, hMN, hres⟩ := mtxGaussReduc_spec junk A 1 A t u [] hn I h0 hI
  refine ⟨M, N, hMN, ?_⟩
  unfold mtxInv
  rw [if_neg (by simpa using h3), if_neg (by simp), if_neg (by simp), if_neg (by simp), if_neg (by simp)]
  rw [mat_rows, mat_cols, hcopy]
  simp only [ok_bind, ne_eq, not_true_eq_false, if_false]
  rw [mtx_init_identity_real]
  simp only [ok_bind, not_true_eq_false, if_false]
  rw [mtx_deter_correct]
  simp only [ok_bind, XR.lit_eq, Rat.cast_zero]
  rw [if_neg (by simpa using hdet), hres]
  rfl

/-- A reduced matrix that is invertible is the identity. -/
theorem Rref.eq_one {G : Matrix (Fin n) (Fin n) ℝ} (h : Rref n G) (hu : IsUnit G) : G = 1 := by
  have := h.idem
  obtain ⟨g, rfl⟩ := hu
  have h2 := congrArg (fun M => (↑g⁻¹ : Matrix (Fin n) (Fin n) ℝ) * M) this
  simpa [← Matrix.mul_assoc] using h2

/-- C26 `_partial`. If the elimination of an invertible matrix never meets a non-zero number below 1e-6, `zsl_mtx_inv` stores the two-sided
inverse, also when rows have to be added. Missing: matrices with such numbers; the claim is false for some of them
(`mtx_inv_small_pivot`). -/
theorem mtx_inv_noTiny_partial (junk : ℕ → XR) (A B : Matrix (Fin n) (Fin n) ℝ) (t u : List XR) (hn : 0 < n) (hdet : A.det ≠ 0)
    (hA : NoTiny A) : ∃ C : Matrix (Fin n) (Fin n) ℝ, mtxInv junk (mat A t) (mat B u) = ok (0, mat C u) ∧ A * C = 1 ∧ C * A = 1 := by
  by_cases h3 : n = 3
  · subst h3
    unfold mtxInv
    rw [if_pos (by rfl)]
    exact mtx_inv_3x3_correct _ _ (B.map XR.fin) t u hdet
  obtain ⟨M, N, ⟨-, h1, h2, h4⟩, hres⟩ := mtxInv_invariant junk A B t u hn h3 hdet
    (fun k M N => Reach A k M ∧ Rref k M ∧ IsUnit N ∧ M = N * A)
    ⟨.start, fun j hj => absurd hj (Nat.not_lt_zero _), isUnit_one, (one_mul _).symm⟩ (by
      rintro k M N Q ⟨h1, h2, h3, h4⟩ hQ
      refine ⟨.step k M Q h1 hQ, h2.step (hA k M h1) hQ, (stepMat_isUnit _ _).mul (hQ.isUnit.mul h3), ?_⟩
      rw [h4]
      simp only [Matrix.mul_assoc])
  have hAu : IsUnit A := (Matrix.isUnit_iff_isUnit_det _).2 (isUnit_iff_ne_zero.2 hdet)
  have hM : M = 1 := h1.eq_one (h4 ▸ h2.mul hAu)
  rw [hM] at h4
  exact ⟨N, hres, mul_eq_one_comm.1 h4.symm, h4.symm⟩

/-- Non-vacuity: the matrix `(0 1/2; 1/2 0)`, which is no matrix of integers and needs a row addition. -/
example (junk : ℕ → XR) : ∃ C : Matrix (Fin 2) (Fin 2) ℝ,
    mtxInv junk (mat !![0, 1 / 2; 1 / 2, 0] []) (mat (0 : Matrix (Fin 2) (Fin 2) ℝ) []) = ok (0, mat C []) ∧ !![0, 1 / 2; 1 / 2, 0] * C = 1 := by
  have hT : (Matrix.transvection 0 1 1 : Matrix (Fin 2) (Fin 2) ℝ) * !![0, 1 / 2; 1 / 2, 0] = !![1 / 2, 1 / 2; 1 / 2, 0] := by
    ext i j
    rw [transvection_mul_eq]
    fin_cases i <;> fin_cases j <;> simp
  have hnt : NoTiny (!![0, 1 / 2; 1 / 2, 0] : Matrix (Fin 2) (Fin 2) ℝ) := by
    intro k M hM q
    generalize hk : k.val = kv at hM
    cases hM with
    | start =>
      have : k = 0 := Fin.ext hk
      subst this
      fin_cases q
      · left; simp
      · right; norm_num
    | step k' M' Q h1 hQ =>
      have hk1 : k = 1 := Fin.ext (by omega)
      have hk0 : k' = 0 := Fin.ext (by simp; omega)
      subst hk1
      subst hk0
      generalize h0 : (0 : Fin 2).val = z at h1
      cases h1 with
      | step k'' M'' Q' _ _ => simp at h0
      | start =>
      have hQ' : Q = Matrix.transvection 0 1 1 := by
        rcases hQ with ⟨h, _⟩ | ⟨_, _, h⟩ | ⟨_, q', hq', _, _, rfl⟩
        · norm_num at h
        · rcases h 1 with h | h
          · norm_num [abs_lt] at h
          · simp at h
        · have : q' = 1 := by omega
          subst this
          rfl
      subst hQ'
      rw [hT]
      right
      rw [stepMat, if_neg (by norm_num [abs_lt]), Matrix.mul_assoc, normMat_mul, elimMat_mul, elimMat_mul]
      fin_cases q <;> norm_num [mulOf]
  obtain ⟨C, h1, h2, -⟩ := mtx_inv_noTiny_partial junk !![0, 1 / 2; 1 / 2, 0] 0 [] [] (by norm_num) (by
    rw [Matrix.det_fin_two]
    norm_num) hnt
  exact ⟨C, h1, h2⟩

end Verif
