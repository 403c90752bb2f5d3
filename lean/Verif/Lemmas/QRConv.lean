import Mathlib.Analysis.Matrix.Spectrum
import Mathlib.LinearAlgebra.Lagrange
import Mathlib.LinearAlgebra.Matrix.Charpoly.Eigs
import Mathlib.Topology.Algebra.Polynomial
import Mathlib.Topology.Instances.Matrix
import Mathlib.Topology.Order.MonotoneConvergence
import Mathlib.Topology.Algebra.Order.LiminfLimsup

/-!
# Convergence of the QR iteration for symmetric matrices

Pure linear algebra, no model. With `A_k = Q_k R_k` and `A_(k+1) = R_k Q_k`, the squares satisfy `A_k² = R_kᵀ R_k` and `A_(k+1)² = R_k R_kᵀ`. So the sums of the
first `j` diagonal entries of the squares increase, by the squares of the entries of `R_k` right of the leading block. They are bounded, hence these entries tend to zero
and the squares tend to a diagonal matrix. If no two eigenvalues are opposite, `A` is a polynomial in its square, and the iterates converge, too.
-/

namespace Verif

open Filter Topology Matrix

variable {n : ℕ}

/-- One step of the QR iteration. -/
def QRStep (A A' : Matrix (Fin n) (Fin n) ℝ) : Prop :=
  ∃ Q R : Matrix (Fin n) (Fin n) ℝ, Q * Qᵀ = 1 ∧ Qᵀ * Q = 1 ∧ (∀ i j, j < i → R i j = 0) ∧ Q * R = A ∧ A' = R * Q

theorem QRStep.symm {A A' : Matrix (Fin n) (Fin n) ℝ} (h : QRStep A A') (hA : Aᵀ = A) : A'ᵀ = A' := by
  obtain ⟨Q, R, -, hQ, -, h1, rfl⟩ := h
  have : R = Qᵀ * A := by rw [← h1, ← Matrix.mul_assoc, hQ, Matrix.one_mul]
  rw [this, Matrix.transpose_mul, Matrix.transpose_mul, hA, Matrix.transpose_transpose, Matrix.mul_assoc]

/-- The squares before and after a step. -/
theorem QRStep.squares {A A' : Matrix (Fin n) (Fin n) ℝ} (h : QRStep A A') (hA : Aᵀ = A) :
    ∃ R : Matrix (Fin n) (Fin n) ℝ, (∀ i j, j < i → R i j = 0) ∧ A * A = Rᵀ * R ∧ A' * A' = R * Rᵀ := by
  have hs := h.symm hA
  obtain ⟨Q, R, hQ, hQ', hR, h1, rfl⟩ := h
  have e1 : A * A = (Q * R)ᵀ * (Q * R) := by rw [h1, hA]
  have e2 : R * Q * (R * Q) = R * Q * (R * Q)ᵀ := by rw [hs]
  refine ⟨R, hR, ?_, ?_⟩
  · rw [e1, Matrix.transpose_mul, Matrix.mul_assoc, ← Matrix.mul_assoc Qᵀ, hQ', Matrix.one_mul]
  · rw [e2, Matrix.transpose_mul, Matrix.mul_assoc, ← Matrix.mul_assoc Q, hQ, Matrix.one_mul]

/-- The sum of the first `j` diagonal entries. -/
def leadSum (j : ℕ) (M : Matrix (Fin n) (Fin n) ℝ) : ℝ := ∑ i, if i.val < j then M i i else 0

theorem leadSum_step {R : Matrix (Fin n) (Fin n) ℝ} (hR : ∀ i j, j < i → R i j = 0) (j : ℕ) :
    leadSum j (R * Rᵀ) = leadSum j (Rᵀ * R) + ∑ i : Fin n, ∑ l : Fin n, if i.val < j ∧ j ≤ l.val then R i l ^ 2 else 0 := by
  have h1 : leadSum j (R * Rᵀ) = ∑ i : Fin n, ∑ l : Fin n, if i.val < j then R i l ^ 2 else 0 := by
    unfold leadSum
    refine Finset.sum_congr rfl fun i _ => ?_
    split_ifs
    · rw [Matrix.mul_apply]
      exact Finset.sum_congr rfl fun l _ => by rw [Matrix.transpose_apply, sq]
    · simp
  have h2 : leadSum j (Rᵀ * R) = ∑ i : Fin n, ∑ l : Fin n, if l.val < j then R i l ^ 2 else 0 := by
    unfold leadSum
    rw [Finset.sum_comm]
    refine Finset.sum_congr rfl fun i _ => ?_
    split_ifs
    · rw [Matrix.mul_apply]
      exact Finset.sum_congr rfl fun l _ => by rw [Matrix.transpose_apply, sq]
    · simp
  rw [h1, h2, ← Finset.sum_add_distrib]
  refine Finset.sum_congr rfl fun i _ => ?_
  rw [← Finset.sum_add_distrib]
  refine Finset.sum_congr rfl fun l _ => ?_
  by_cases hi : i.val < j <;> by_cases hl : l.val < j
  · rw [if_pos hi, if_pos hl, if_neg (by omega), add_zero]
  · rw [if_pos hi, if_neg hl, if_pos ⟨hi, by omega⟩, zero_add]
  · rw [if_neg hi, if_pos hl, if_neg (by omega), add_zero, hR i l (by rw [Fin.lt_def]; omega)]
    norm_num
  · rw [if_neg hi, if_neg hl, if_neg (by omega), add_zero]

section
variable (A : ℕ → Matrix (Fin n) (Fin n) ℝ) (hs : ∀ k, QRStep (A k) (A (k + 1))) (h0 : (A 0)ᵀ = A 0)
include hs h0

theorem iter_symm (k : ℕ) : (A k)ᵀ = A k := by
  induction k with
  | zero => exact h0
  | succ k ih => exact (hs k).symm ih

omit h0 in
/-- Every iterate is orthogonally similar to the first one. -/
theorem iter_similar (k : ℕ) : ∃ P : Matrix (Fin n) (Fin n) ℝ, P * Pᵀ = 1 ∧ Pᵀ * P = 1 ∧ A k = P * A 0 * Pᵀ := by
  induction k with
  | zero => exact ⟨1, by simp, by simp, by simp⟩
  | succ k ih =>
    obtain ⟨P, hP, hP', hA⟩ := ih
    obtain ⟨Q, R, hQ, hQ', -, h1, h2⟩ := hs k
    have hR : R = Qᵀ * A k := by rw [← h1, ← Matrix.mul_assoc, hQ', Matrix.one_mul]
    refine ⟨Qᵀ * P, ?_, ?_, ?_⟩
    · rw [Matrix.transpose_mul, Matrix.transpose_transpose, ← Matrix.mul_assoc, Matrix.mul_assoc Qᵀ, hP, Matrix.mul_one, hQ']
    · rw [Matrix.transpose_mul, Matrix.transpose_transpose, ← Matrix.mul_assoc, Matrix.mul_assoc Pᵀ, hQ, Matrix.mul_one, hP']
    · rw [h2, hR, hA, Matrix.transpose_mul, Matrix.transpose_transpose]
      simp only [Matrix.mul_assoc]

/-- The squares converge to a diagonal matrix. -/
theorem squares_tendsto : ∃ d : Fin n → ℝ, Tendsto (fun k => A k * A k) atTop (𝓝 (Matrix.diagonal d)) := by
  choose R hR hB hB' using fun k => (hs k).squares (iter_symm A hs h0 k)
  -- the bound
  have htr : ∀ k, (A k * A k).trace = (A 0 * A 0).trace := by
    intro k
    induction k with
    | zero => rfl
    | succ k ih => rw [hB', Matrix.trace_mul_comm, ← hB, ih]
  have hdiag : ∀ k i, 0 ≤ (A k * A k) i i := by
    intro k i
    rw [hB k, Matrix.mul_apply]
    exact Finset.sum_nonneg fun l _ => by rw [Matrix.transpose_apply]; exact mul_self_nonneg _
  have hle : ∀ j k, leadSum j (A k * A k) ≤ (A 0 * A 0).trace := by
    intro j k
    rw [← htr k]
    refine Finset.sum_le_sum fun i _ => ?_
    split_ifs
    · exact le_rfl
    · exact hdiag k i
  have hstep : ∀ j k, leadSum j (A (k + 1) * A (k + 1)) = leadSum j (A k * A k) + ∑ i : Fin n, ∑ l : Fin n, if i.val < j ∧ j ≤ l.val then R k i l ^ 2 else 0 := by
    intro j k
    rw [hB', hB k]
    exact leadSum_step (hR k) j
  have hnn : ∀ j k (i l : Fin n), 0 ≤ (if i.val < j ∧ j ≤ l.val then R k i l ^ 2 else 0) := by
    intro j k i l
    split_ifs
    · exact sq_nonneg _
    · exact le_rfl
  have hmono : ∀ j, Monotone fun k => leadSum j (A k * A k) := by
    intro j
    refine monotone_nat_of_le_succ fun k => ?_
    rw [hstep]
    exact le_add_of_nonneg_right (Finset.sum_nonneg fun i _ => Finset.sum_nonneg fun l _ => hnn j k i l)
  have hlim : ∀ j, ∃ s, Tendsto (fun k => leadSum j (A k * A k)) atTop (𝓝 s) := fun j =>
    ⟨_, tendsto_atTop_ciSup (hmono j) ⟨_, by rintro _ ⟨k, rfl⟩; exact hle j k⟩⟩
  choose s hsl using hlim
  -- the entries right of the diagonal
  have hoff : ∀ i l : Fin n, i < l → Tendsto (fun k => R k i l) atTop (𝓝 0) := by
    intro i l hil
    have h1 : Tendsto (fun k => leadSum l.val (A (k + 1) * A (k + 1)) - leadSum l.val (A k * A k)) atTop (𝓝 0) := by
      have := ((hsl l.val).comp (tendsto_add_atTop_nat 1)).sub (hsl l.val)
      rw [sub_self] at this
      exact this
    have h2 : Tendsto (fun k => R k i l ^ 2) atTop (𝓝 0) := by
      refine squeeze_zero (fun k => sq_nonneg _) (fun k => ?_) h1
      rw [hstep, add_sub_cancel_left]
      refine le_trans ?_ (Finset.single_le_sum (f := fun i : Fin n => ∑ m : Fin n, if i.val < l.val ∧ l.val ≤ m.val then R k i m ^ 2 else 0)
        (fun i _ => Finset.sum_nonneg fun m _ => hnn _ k i m) (Finset.mem_univ i))
      refine le_trans ?_ (Finset.single_le_sum (f := fun m : Fin n => if i.val < l.val ∧ l.val ≤ m.val then R k i m ^ 2 else 0)
        (fun m _ => hnn _ k i m) (Finset.mem_univ l))
      rw [if_pos ⟨hil, le_rfl⟩]
    have h3 := h2.sqrt
    rw [Real.sqrt_zero] at h3
    simp only [Real.sqrt_sq_eq_abs] at h3
    exact (tendsto_zero_iff_abs_tendsto_zero _).2 h3
  -- all entries are bounded
  have hbd : ∀ k i l, |R k i l| ≤ Real.sqrt (A 0 * A 0).trace := by
    intro k i l
    rw [← Real.sqrt_sq_eq_abs]
    refine Real.sqrt_le_sqrt ?_
    rw [← htr k]
    refine le_trans ?_ (Finset.single_le_sum (f := fun i => (A k * A k) i i) (fun i _ => hdiag k i) (Finset.mem_univ l))
    rw [hB k, Matrix.mul_apply]
    refine le_trans (le_of_eq ?_) (Finset.single_le_sum (f := fun m => (R k)ᵀ l m * R k m l)
      (fun m _ => by rw [Matrix.transpose_apply]; exact mul_self_nonneg _) (Finset.mem_univ i))
    rw [Matrix.transpose_apply, sq]
  have hz : ∀ i l : Fin n, i ≠ l → Tendsto (fun k => (A k * A k) i l) atTop (𝓝 0) := by
    intro i l hil
    have e : ∀ k, (A k * A k) i l = ∑ m, R k m i * R k m l := by
      intro k
      rw [hB k, Matrix.mul_apply]
      rfl
    simp only [e]
    rw [show (0 : ℝ) = ∑ _m : Fin n, (0 : ℝ) by simp]
    refine tendsto_finsetSum _ fun m _ => ?_
    have hb1 : ∀ i, IsBoundedUnder (· ≤ ·) atTop (norm ∘ fun k => R k m i) := fun i =>
      isBoundedUnder_of ⟨Real.sqrt (A 0 * A 0).trace, fun k => by simpa using hbd k m i⟩
    rcases lt_trichotomy m i with h | h | h
    · exact (hoff m i h).zero_mul_isBoundedUnder_le (hb1 l)
    · subst h
      rcases lt_or_gt_of_ne hil with h' | h'
      · simp only [mul_comm (R _ m m)]
        exact (hoff m l h').zero_mul_isBoundedUnder_le (hb1 m)
      · simp only [fun k => hR k m l h', mul_zero]
        exact tendsto_const_nhds
    · simp only [fun k => hR k m i h, zero_mul]
      exact tendsto_const_nhds
  refine ⟨fun i => s (i.val + 1) - s i.val, ?_⟩
  refine tendsto_pi_nhds.2 fun i => tendsto_pi_nhds.2 fun l => ?_
  by_cases hil : i = l
  · subst hil
    rw [Matrix.diagonal_apply_eq]
    have e : ∀ k, (A k * A k) i i = leadSum (i.val + 1) (A k * A k) - leadSum i.val (A k * A k) := by
      intro k
      unfold leadSum
      rw [← Finset.sum_sub_distrib, Finset.sum_eq_single i]
      · simp
      · intro b _ hb
        have : b.val ≠ i.val := fun h => hb (Fin.ext h)
        by_cases h : b.val < i.val
        · rw [if_pos (by omega), if_pos h, sub_self]
        · rw [if_neg (by omega), if_neg h, sub_self]
      · simp
    simp only [e]
    exact (hsl _).sub (hsl _)
  · rw [Matrix.diagonal_apply_ne _ hil]
    exact hz i l hil

end

/-- A symmetric matrix without opposite eigenvalues is a polynomial in its square. -/
theorem poly_of_square (A : Matrix (Fin n) (Fin n) ℝ) (h0 : Aᵀ = A) (hp : ∀ x, x ≠ 0 → A.charpoly.IsRoot x → ¬ A.charpoly.IsRoot (-x)) :
    ∃ p : Polynomial ℝ, Polynomial.aeval (A * A) p = A := by
  classical
  have hA : A.IsHermitian := by
    rw [Matrix.IsHermitian, Matrix.conjTranspose_eq_transpose_of_trivial, h0]
  set ev := hA.eigenvalues with hev
  have hroot : ∀ i, A.charpoly.IsRoot (ev i) := by
    intro i
    rw [Polynomial.IsRoot, hA.charpoly_eq, Polynomial.eval_prod]
    exact Finset.prod_eq_zero (Finset.mem_univ i) (by simp [hev])
  set f : ℝ → ℝ := fun s => if A.charpoly.IsRoot (Real.sqrt s) then Real.sqrt s else -Real.sqrt s with hf
  have hfe : ∀ i, f (ev i * ev i) = ev i := by
    intro i
    simp only [hf, Real.sqrt_mul_self_eq_abs]
    rcases lt_trichotomy (ev i) 0 with h | h | h
    · rw [abs_of_neg h, if_neg (hp _ h.ne (hroot i)), neg_neg]
    · simp [h]
    · rw [abs_of_pos h, if_pos (hroot i)]
  set S : Finset ℝ := Finset.univ.image fun i => ev i * ev i
  refine ⟨Lagrange.interpolate S id f, ?_⟩
  set p := Lagrange.interpolate S id f
  have hpe : ∀ i, p.eval (ev i * ev i) = ev i := by
    intro i
    have := Lagrange.eval_interpolate_at_node (s := S) (v := id) f (Function.injective_id.injOn) (i := ev i * ev i)
      (Finset.mem_image_of_mem _ (Finset.mem_univ i))
    simp only [id] at this
    rw [this, hfe]
  have hspec := hA.spectral_theorem
  set φ := Unitary.conjStarAlgAut ℝ (Matrix (Fin n) (Fin n) ℝ) hA.eigenvectorUnitary
  set D : Matrix (Fin n) (Fin n) ℝ := Matrix.diagonal ev
  have hD : A = φ D := hspec
  have hDD : D * D = Matrix.diagonalAlgHom ℝ (fun i => ev i * ev i) := by
    exact Matrix.diagonal_mul_diagonal _ _
  have h1 : Polynomial.aeval (D * D) p = D := by
    rw [hDD, Polynomial.aeval_algHom_apply]
    have : Polynomial.aeval (fun i => ev i * ev i) p = ev := by
      funext i
      rw [← hpe i]
      have := Polynomial.aeval_algHom_apply (Pi.evalAlgHom ℝ (fun _ : Fin n => ℝ) i) (fun i => ev i * ev i) p
      simp only [Pi.evalAlgHom_apply] at this
      rw [← this, Polynomial.coe_aeval_eq_eval]
    rw [this]
    rfl
  have h2 : A * A = φ (D * D) := by rw [map_mul, ← hD]
  rw [h2]
  have := Polynomial.aeval_algHom_apply (φ : Matrix (Fin n) (Fin n) ℝ →ₐ[ℝ] Matrix (Fin n) (Fin n) ℝ) (D * D) p
  refine Eq.trans this ?_
  rw [h1]
  exact hD.symm

theorem aeval_conj {P : Matrix (Fin n) (Fin n) ℝ} (hP : P * Pᵀ = 1) (hP' : Pᵀ * P = 1) (B : Matrix (Fin n) (Fin n) ℝ) (p : Polynomial ℝ) :
    Polynomial.aeval (P * B * Pᵀ) p = P * Polynomial.aeval B p * Pᵀ := by
  have hpow : ∀ k : ℕ, (P * B * Pᵀ) ^ k = P * B ^ k * Pᵀ := by
    intro k
    induction k with
    | zero => simp [hP]
    | succ k ih =>
      rw [pow_succ, ih, pow_succ, Matrix.mul_assoc (P * B ^ k), ← Matrix.mul_assoc Pᵀ, ← Matrix.mul_assoc Pᵀ, hP', Matrix.one_mul, ← Matrix.mul_assoc, ← Matrix.mul_assoc]
  rw [Polynomial.aeval_eq_sum_range, Polynomial.aeval_eq_sum_range, Matrix.mul_sum, Matrix.sum_mul]
  refine Finset.sum_congr rfl fun i _ => ?_
  rw [hpow, Matrix.mul_smul, Matrix.smul_mul]

theorem charpoly_conj {P : Matrix (Fin n) (Fin n) ℝ} (hP' : Pᵀ * P = 1) (B : Matrix (Fin n) (Fin n) ℝ) : (P * B * Pᵀ).charpoly = B.charpoly := by
  rw [Matrix.charpoly_mul_comm, ← Matrix.mul_assoc, hP', Matrix.one_mul]

/-- The QR iteration of a symmetric matrix without opposite eigenvalues converges to a diagonal matrix with the same characteristic polynomial. -/
theorem qr_tendsto (A : ℕ → Matrix (Fin n) (Fin n) ℝ) (hs : ∀ k, QRStep (A k) (A (k + 1))) (h0 : (A 0)ᵀ = A 0)
    (hp : ∀ x, x ≠ 0 → (A 0).charpoly.IsRoot x → ¬ (A 0).charpoly.IsRoot (-x)) :
    ∃ μ : Fin n → ℝ, (A 0).charpoly = ∏ i, (Polynomial.X - Polynomial.C (μ i)) ∧ Tendsto A atTop (𝓝 (Matrix.diagonal μ)) := by
  obtain ⟨d, hd⟩ := squares_tendsto A hs h0
  obtain ⟨p, hpA⟩ := poly_of_square (A 0) h0 hp
  have hk : ∀ k, Polynomial.aeval (A k * A k) p = A k := by
    intro k
    obtain ⟨P, hP, hP', hA⟩ := iter_similar A hs k
    have : A k * A k = P * (A 0 * A 0) * Pᵀ := by
      rw [hA, Matrix.mul_assoc (P * A 0), ← Matrix.mul_assoc Pᵀ, ← Matrix.mul_assoc Pᵀ, hP', Matrix.one_mul, ← Matrix.mul_assoc, ← Matrix.mul_assoc]
    rw [this, aeval_conj hP hP', hpA, hA]
  have hlim : Tendsto A atTop (𝓝 (Matrix.diagonal (Polynomial.aeval d p))) := by
    have h1 := ((Polynomial.continuous_aeval (A := Matrix (Fin n) (Fin n) ℝ) p).tendsto (Matrix.diagonal d)).comp hd
    have h2 : Polynomial.aeval (Matrix.diagonal d) p = Matrix.diagonal (Polynomial.aeval d p) :=
      Polynomial.aeval_algHom_apply (Matrix.diagonalAlgHom ℝ) d p
    rw [h2] at h1
    exact h1.congr hk
  refine ⟨_, ?_, hlim⟩
  refine Polynomial.funext fun x => ?_
  rw [Polynomial.eval_prod]
  have h1 : Tendsto (fun k => (A k).charpoly.eval x) atTop (𝓝 ((Matrix.diagonal (Polynomial.aeval d p)).charpoly.eval x)) := by
    simp only [Matrix.eval_charpoly]
    exact ((Continuous.matrix_det (continuous_const.sub continuous_id)).tendsto _).comp hlim
  have h2 : ∀ k, (A k).charpoly.eval x = (A 0).charpoly.eval x := by
    intro k
    obtain ⟨P, hP, hP', hA⟩ := iter_similar A hs k
    rw [hA, charpoly_conj hP']
  simp only [h2] at h1
  rw [tendsto_nhds_unique tendsto_const_nhds h1, Matrix.charpoly_diagonal, Polynomial.eval_prod]

end Verif
