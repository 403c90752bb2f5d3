import Mathlib.LinearAlgebra.Matrix.AbsoluteValue
import Mathlib.LinearAlgebra.Matrix.ToLinearEquiv
import Mathlib.Algebra.Order.AbsoluteValue.Basic
import Verif.Lemmas.Gauss

/-!
# Properties of matrices: Gaussian elimination (C25) and the general inverse (C26)
-/

set_option linter.unusedSectionVars false

namespace Verif

open Out

variable {n : ℕ}

/-! ## C25: elimination, normalisation, reduction -/

/-- C25. `zsl_mtx_gauss_elim_d` multiplies both matrices by one invertible matrix; with a pivot of at least 1e-6 in magnitude, every
other entry of the pivot column becomes zero, or was below 1e-6 and stays as it was. The pivot row does not change. -/
theorem mtx_gauss_elim_d_correct (x0 : XR) (M N : Matrix (Fin n) (Fin n) ℝ) (t u : List XR) (i j : Fin n) :
    ∃ P : Matrix (Fin n) (Fin n) ℝ, IsUnit P ∧
      mtxGaussElimD x0 (mat M t) (mat N u) i j = ok (0, mat (P * M) t, mat (P * N) u) ∧
      (P * M) i = M i ∧
      (1 / 1000000 ≤ |M i j| → ∀ p, p ≠ i →
        (P * M) p j = 0 ∨ ((P * M) p j = M p j ∧ |M p j| < 1 / 1000000)) := by
  rw [mtxGaussElimD_eq]
  by_cases h : |M i j| < 1 / 1000000
  · rw [if_pos h]
    refine ⟨1, isUnit_one, by rw [one_mul, one_mul], by rw [one_mul], fun h' => ?_⟩
    linarith
  · rw [if_neg h]
    refine ⟨_, elimMat_isUnit M i j, rfl, ?_, fun _ p hp => ?_⟩
    · funext b
      rw [elimMat_mul, mulOf_self]
      ring
    · rw [elimMat_mul]
      unfold mulOf
      by_cases hs : 1 / 1000000 ≤ |M p j|
      · left
        rw [if_pos ⟨hp, hs⟩]
        have := ne_zero_of_not_small h
        field_simp
        ring
      · right
        rw [if_neg (fun hh => hs hh.2)]
        exact ⟨by ring, not_le.1 hs⟩

/-- C25. `zsl_mtx_gauss_elim` copies its input and does the same. -/
theorem mtx_gauss_elim_copies (x0 : XR) (M G N : Matrix (Fin n) (Fin n) ℝ) (t w u : List XR) (i j : ℕ) :
    mtxGaussElim x0 (mat M t) (mat G w) (mat N u) i j = mtxGaussElimD x0 (mat M w) (mat N u) i j := by
  unfold mtxGaussElim mtxGaussElimD
  have hcopy : mtxCopy (mat G w) (mat M t) = ok (0, mat M w) := mtx_copy_correct _ _ _ _
  rw [hcopy]
  rfl

/-- C25. `zsl_mtx_norm_elem_d` multiplies both matrices by one invertible matrix, and makes an element of at least 1e-6 in
magnitude equal to 1; the other rows do not change. -/
theorem mtx_norm_elem_d_correct (x0 : XR) (M N : Matrix (Fin n) (Fin n) ℝ) (t u : List XR) (i j : Fin n) :
    ∃ P : Matrix (Fin n) (Fin n) ℝ, IsUnit P ∧
      mtxNormElemD x0 (mat M t) (mat N u) i j = ok (0, mat (P * M) t, mat (P * N) u) ∧
      (∀ p, p ≠ i → (P * M) p = M p) ∧ (1 / 1000000 ≤ |M i j| → (P * M) i j = 1) := by
  rw [mtxNormElemD_eq]
  by_cases h : |M i j| < 1 / 1000000
  · rw [if_pos h]
    refine ⟨1, isUnit_one, by rw [one_mul, one_mul], fun p _ => by rw [one_mul], fun h' => ?_⟩
    linarith
  · rw [if_neg h]
    refine ⟨_, normMat_isUnit i (ne_zero_of_not_small h), rfl, fun p hp => ?_, fun _ => ?_⟩
    · funext b
      rw [normMat_mul, if_neg hp]
    · rw [normMat_mul, if_pos rfl, div_self (ne_zero_of_not_small h)]

/-- C25. `zsl_mtx_norm_elem` copies its input and does the same. -/
theorem mtx_norm_elem_copies (x0 : XR) (M G N : Matrix (Fin n) (Fin n) ℝ) (t w u : List XR) (i j : ℕ) :
    mtxNormElem x0 (mat M t) (mat G w) (mat N u) i j = mtxNormElemD x0 (mat M w) (mat N u) i j := by
  unfold mtxNormElem mtxNormElemD
  have hcopy : mtxCopy (mat G w) (mat M t) = ok (0, mat M w) := mtx_copy_correct _ _ _ _
  rw [hcopy]
  rfl

/-- C25. A pivot position outside the matrix is refused by both functions, and nothing changes. -/
theorem mtx_gauss_range (x0 : XR) (M N : Matrix (Fin n) (Fin n) ℝ) (t u : List XR) (i j : ℕ)
    (h : n ≤ i ∨ n ≤ j) :
    mtxGaussElimD x0 (mat M t) (mat N u) i j = ok (-EINVAL, mat M t, mat N u) ∧
    mtxNormElemD x0 (mat M t) (mat N u) i j = ok (-EINVAL, mat M t, mat N u) := by
  have hget : mtxGet (mat M t) i j x0 = ok (-EINVAL, x0) := by
    unfold mat
    rw [mtxOf_eq, mkM_get_oob _ _ _ h]
  unfold mtxGaussElimD gaussElimBody mtxNormElemD normElemBody
  rw [hget]
  simp only [ok_bind]
  constructor <;> rw [if_pos (by decide)] <;> rfl

/-- C25. An output of another shape than the input is refused by `zsl_mtx_gauss_elim` and `zsl_mtx_norm_elem`, and nothing changes. -/
theorem mtx_gauss_shape {R : Type} [CReal R] (x0 : R) (m mg mi : Mtx R) (i j : ℕ) (h : mg.rows ≠ m.rows ∨ mg.cols ≠ m.cols) :
    mtxGaussElim x0 m mg mi i j = ok (-EINVAL, mg, mi) ∧ mtxNormElem x0 m mg mi i j = ok (-EINVAL, mg, mi) := by
  unfold mtxGaussElim mtxNormElem
  rw [mtx_copy_shape mg m h]
  simp only [ok_bind]
  constructor <;> rw [if_pos (by decide)] <;> rfl

/-- C25. `zsl_mtx_gauss_reduc` multiplies the working matrix and the companion matrix by one invertible matrix. -/
theorem mtx_gauss_reduc_correct (junk : ℕ → XR) (A B C : Matrix (Fin n) (Fin n) ℝ) (t u w : List XR)
    (hn : 0 < n) :
    ∃ P : Matrix (Fin n) (Fin n) ℝ, IsUnit P ∧
      mtxGaussReduc junk (mat A t) (mat B u) (mat C w) = ok (0, mat (P * B) u, mat (P * A) w) := by
  obtain ⟨M, N, ⟨P, hP, rfl, rfl⟩, h⟩ := mtxGaussReduc_spec junk A B C t u w hn
    (fun _ M N => ∃ P, IsUnit P ∧ M = P * A ∧ N = P * B) ⟨1, isUnit_one, by rw [one_mul], by rw [one_mul]⟩
    (by
      rintro k M N Q ⟨P, hP, rfl, rfl⟩ hQ
      refine ⟨stepMat (Q * (P * A)) k * (Q * P), (stepMat_isUnit _ _).mul (hQ.isUnit.mul hP), ?_, ?_⟩ <;>
        simp only [Matrix.mul_assoc])
  exact ⟨P, hP, h⟩

/-- C25. Hence "companion times original is the working matrix" is preserved by all three. -/
theorem mtx_gauss_invariant (junk : ℕ → XR) (x0 : XR) (A M N C : Matrix (Fin n) (Fin n) ℝ) (t u w : List XR)
    (i j : Fin n) (h : N * A = M) :
    (∃ M' N' : Matrix (Fin n) (Fin n) ℝ, N' * A = M' ∧
      mtxGaussElimD x0 (mat M t) (mat N u) i j = ok (0, mat M' t, mat N' u)) ∧
    (∃ M' N' : Matrix (Fin n) (Fin n) ℝ, N' * A = M' ∧
      mtxNormElemD x0 (mat M t) (mat N u) i j = ok (0, mat M' t, mat N' u)) ∧
    ∃ M' N' : Matrix (Fin n) (Fin n) ℝ, N' * A = M' ∧
      mtxGaussReduc junk (mat M t) (mat N u) (mat C w) = ok (0, mat N' u, mat M' w) := by
  have hn : 0 < n := i.pos
  obtain ⟨P, _, h1, _⟩ := mtx_gauss_elim_d_correct x0 M N t u i j
  obtain ⟨P', _, h2, _⟩ := mtx_norm_elem_d_correct x0 M N t u i j
  obtain ⟨P'', _, h3⟩ := mtx_gauss_reduc_correct junk M N C t u w hn
  exact ⟨⟨_, _, by rw [Matrix.mul_assoc, h], h1⟩, ⟨_, _, by rw [Matrix.mul_assoc, h], h2⟩,
    ⟨_, _, by rw [Matrix.mul_assoc, h], h3⟩⟩

/-- Non-vacuity: a pivot of sufficient size. -/
example : 1 / 1000000 ≤ |(!![2, 1; 4, 3] : Matrix (Fin 2) (Fin 2) ℝ) 0 0| := by
  simp
  norm_num

/-! ## C26: the general inverse -/

/-- The leading `k × k` block. -/
def lead {α : Type} (A : Matrix (Fin n) (Fin n) α) (k : ℕ) (hk : k ≤ n) : Matrix (Fin k) (Fin k) α :=
  A.submatrix (Fin.castLE hk) (Fin.castLE hk)

theorem sum_split (k : ℕ) (hk : k ≤ n) (f : Fin n → ℝ) :
    ∑ q, f q = ∑ q : Fin k, f (Fin.castLE hk q) + ∑ q : Fin n, if k ≤ q.val then f q else 0 := by
  obtain ⟨m, rfl⟩ := Nat.exists_eq_add_of_le hk
  rw [Fin.sum_univ_add, Fin.sum_univ_add (fun q : Fin (k + m) => if k ≤ q.val then f q else 0)]
  have h1 : ∀ q : Fin k, (if k ≤ (Fin.castAdd m q).val then f (Fin.castAdd m q) else 0) = 0 := by
    intro q
    rw [if_neg (by simp)]
  have h2 : ∀ q : Fin m, (if k ≤ (Fin.natAdd k q).val then f (Fin.natAdd k q) else 0) = f (Fin.natAdd k q) := by
    intro q
    rw [if_pos (by simp)]
  simp only [h1, h2, Finset.sum_const_zero, zero_add]
  rfl

/-- State of the elimination before step `k`: `G` is the working matrix, `P` the product of the operations so far, `A` the (integer)
matrix they were applied to. -/
structure GJ (k : ℕ) (A : Matrix (Fin n) (Fin n) ℤ) (P G : Matrix (Fin n) (Fin n) ℝ) : Prop where
  prod : G = P * A.map (Int.cast : ℤ → ℝ)
  colP : ∀ p q : Fin n, k ≤ q.val → P p q = if p = q then 1 else 0
  colG : ∀ p j : Fin n, j.val < k → G p j = if p = j then 1 else 0
  det : G.det ≠ 0

theorem GJ.entry {k : ℕ} {A : Matrix (Fin n) (Fin n) ℤ} {P G : Matrix (Fin n) (Fin n) ℝ} (h : GJ k A P G)
    (m : ℕ) (hk : k ≤ m) (hm : m ≤ n) (p j : Fin n) :
    G p j = ∑ q : Fin m, P p (Fin.castLE hm q) * (A (Fin.castLE hm q) j : ℝ) +
      if m ≤ p.val then (A p j : ℝ) else 0 := by
  rw [h.prod, Matrix.mul_apply, sum_split m hm]
  congr 1
  have : ∀ q : Fin n, (if m ≤ q.val then P p q * (A.map (Int.cast : ℤ → ℝ)) q j else 0) =
      if q = p then (if m ≤ p.val then (A p j : ℝ) else 0) else 0 := by
    intro q
    by_cases hq : m ≤ q.val
    · rw [if_pos hq, h.colP p q (by omega)]
      by_cases hqp : q = p
      · subst hqp
        rw [if_pos rfl, if_pos rfl, if_pos hq]
        simp
      · rw [if_neg (Ne.symm hqp), if_neg hqp]
        simp
    · rw [if_neg hq]
      by_cases hqp : q = p
      · subst hqp
        rw [if_pos rfl, if_neg hq]
      · rw [if_neg hqp]
  rw [Finset.sum_congr rfl fun q _ => this q, Finset.sum_ite_eq' Finset.univ p, if_pos (Finset.mem_univ _)]

/-- The leading block is invertible. -/
theorem GJ.lead_det {k : ℕ} {A : Matrix (Fin n) (Fin n) ℤ} {P G : Matrix (Fin n) (Fin n) ℝ} (h : GJ k A P G)
    (hk : k ≤ n) : (lead A k hk).det ≠ 0 := by
  intro h0
  have hinv : (P.submatrix (Fin.castLE hk) (Fin.castLE hk)) * (lead A k hk).map (Int.cast : ℤ → ℝ) = 1 := by
    ext p j
    have := h.entry k le_rfl hk (Fin.castLE hk p) (Fin.castLE hk j)
    rw [if_neg (by simp), add_zero, h.colG _ _ (by simp)] at this
    rw [Matrix.mul_apply, Matrix.one_apply]
    simp only [Matrix.submatrix_apply, Matrix.map_apply, lead]
    rw [← this]
    simp
  have := congrArg Matrix.det hinv
  rw [Matrix.det_mul, Matrix.det_one, ← Int.cast_det, h0] at this
  simp at this

/-- All entries are integer multiples of the reciprocal of the leading minor. -/
theorem GJ.integral {k : ℕ} {A : Matrix (Fin n) (Fin n) ℤ} {P G : Matrix (Fin n) (Fin n) ℝ} (h : GJ k A P G)
    (hk : k ≤ n) (p j : Fin n) : ∃ z : ℤ, ((lead A k hk).det : ℝ) * G p j = z := by
  set Δ := (lead A k hk).det with hΔ
  have hP : ∀ p q : Fin n, ∃ z : ℤ, (Δ : ℝ) * P p q = z := by
    intro p q
    by_cases hq : k ≤ q.val
    · rw [h.colP p q hq]
      split_ifs
      · exact ⟨Δ, by simp⟩
      · exact ⟨0, by simp⟩
    · obtain ⟨q', rfl⟩ : ∃ q' : Fin k, Fin.castLE hk q' = q := ⟨⟨q, by omega⟩, rfl⟩
      let R : Fin k → ℤ := fun j => (if p = Fin.castLE hk j then 1 else 0) -
        if k ≤ p.val then A p (Fin.castLE hk j) else 0
      have hrow : Matrix.vecMul (fun a => P p (Fin.castLE hk a)) ((lead A k hk).map (Int.cast : ℤ → ℝ)) =
          fun j => (R j : ℝ) := by
        funext j
        have := h.entry k le_rfl hk p (Fin.castLE hk j)
        rw [h.colG _ _ (by simp)] at this
        rw [Matrix.vecMul, dotProduct]
        simp only [Matrix.map_apply, lead, Matrix.submatrix_apply, R]
        push_cast
        linarith
      have hadj := congrArg (fun v => Matrix.vecMul v ((lead A k hk).adjugate.map (Int.cast : ℤ → ℝ))) hrow
      simp only [Matrix.vecMul_vecMul] at hadj
      have hm : (lead A k hk).map (Int.cast : ℤ → ℝ) * (lead A k hk).adjugate.map (Int.cast : ℤ → ℝ) =
          (Δ : ℝ) • (1 : Matrix (Fin k) (Fin k) ℝ) := by
        have := congrArg (fun X => Matrix.map X (Int.castRingHom ℝ)) (Matrix.mul_adjugate (lead A k hk))
        simp only [Matrix.map_mul] at this
        refine Eq.trans this ?_
        ext a b
        rw [Matrix.map_apply, Matrix.smul_apply, Matrix.smul_apply, Matrix.one_apply, Matrix.one_apply]
        split_ifs <;> simp [hΔ]
      rw [hm, Matrix.vecMul_smul, Matrix.vecMul_one] at hadj
      have := congrFun hadj q'
      simp only [Pi.smul_apply, smul_eq_mul] at this
      refine ⟨∑ j, R j * (lead A k hk).adjugate j q', ?_⟩
      rw [this, Matrix.vecMul, dotProduct]
      push_cast
      rfl
  choose z hz using hP
  refine ⟨∑ q, z p q * A q j, ?_⟩
  rw [h.prod, Matrix.mul_apply, Finset.mul_sum]
  push_cast
  refine Finset.sum_congr rfl fun q _ => ?_
  rw [← mul_assoc, hz]
  simp

/-- Hence an entry is zero or not small. -/
theorem GJ.gap {k : ℕ} {A : Matrix (Fin n) (Fin n) ℤ} {P G : Matrix (Fin n) (Fin n) ℝ} (h : GJ k A P G)
    (hk : k ≤ n) (hb : |(lead A k hk).det| ≤ 1000000) (p j : Fin n) (hs : |G p j| < 1 / 1000000) :
    G p j = 0 := by
  obtain ⟨z, hz⟩ := h.integral hk p j
  by_contra hne
  have hd : ((lead A k hk).det : ℝ) ≠ 0 := by exact_mod_cast h.lead_det hk
  have hz0 : z ≠ 0 := by
    rintro rfl
    rw [Int.cast_zero] at hz
    exact (mul_ne_zero hd hne) hz
  have h1 : (1 : ℝ) ≤ |(z : ℝ)| := by exact_mod_cast Int.one_le_abs hz0
  have h2 : |((lead A k hk).det : ℝ)| ≤ 1000000 := by exact_mod_cast hb
  rw [← hz, abs_mul] at h1
  have h3 : |((lead A k hk).det : ℝ)| * |G p j| ≤ 1000000 * |G p j| :=
    mul_le_mul_of_nonneg_right h2 (abs_nonneg _)
  linarith

/-- A zero pivot means a zero leading minor. -/
theorem GJ.pivot_zero {A : Matrix (Fin n) (Fin n) ℤ} {P G : Matrix (Fin n) (Fin n) ℝ} {k : Fin n}
    (h : GJ k.val A P G) (h0 : G k k = 0) : (lead A (k.val + 1) k.2).det = 0 := by
  have hk : k.val + 1 ≤ n := k.2
  have hR : ((lead A (k.val + 1) k.2).map (Int.cast : ℤ → ℝ)).det = 0 := by
    rw [← Matrix.exists_vecMul_eq_zero_iff]
    refine ⟨fun a => P k (Fin.castLE hk a), ?_, ?_⟩
    · intro hz
      have := congrFun hz (Fin.last k.val)
      have e : Fin.castLE hk (Fin.last k.val) = k := rfl
      simp only [e, Pi.zero_apply] at this
      rw [h.colP k k le_rfl, if_pos rfl] at this
      exact one_ne_zero this
    · funext j
      have := h.entry (k.val + 1) (by omega) hk k (Fin.castLE hk j)
      rw [if_neg (by omega), add_zero] at this
      rw [Matrix.vecMul, dotProduct]
      simp only [Matrix.map_apply, lead, Matrix.submatrix_apply, Pi.zero_apply]
      rw [← this]
      by_cases hj : j.val < k.val
      · rw [h.colG _ _ (by simpa using hj), if_neg]
        intro he
        have := congrArg Fin.val he
        simp at this
        omega
      · have e : Fin.castLE hk j = k := Fin.ext (by simp; omega)
        rw [e, h0]
  rw [← Int.cast_det] at hR
  exact_mod_cast hR

/-- If the pivot is zero there is a non-zero entry below it. -/
theorem GJ.below {A : Matrix (Fin n) (Fin n) ℤ} {P G : Matrix (Fin n) (Fin n) ℝ} {k : Fin n}
    (h : GJ k.val A P G) : ∃ q : Fin n, k ≤ q ∧ G q k ≠ 0 := by
  by_contra hno
  push Not at hno
  apply h.det
  rw [← Matrix.exists_mulVec_eq_zero_iff]
  refine ⟨fun j => if j = k then -1 else if j.val < k.val then G j k else 0, ?_, ?_⟩
  · intro hz
    have := congrFun hz k
    simp at this
  · funext p
    rw [Matrix.mulVec, dotProduct]
    have : ∀ j : Fin n, G p j * (if j = k then -1 else if j.val < k.val then G j k else 0) =
        (if j = k then -G p k else 0) + if j = p then (if p.val < k.val then G p k else 0) else 0 := by
      intro j
      by_cases hj : j = k
      · subst hj
        rw [if_pos rfl, if_pos rfl]
        by_cases hjp : j = p
        · subst hjp
          simp
        · simp [hjp]
      · rw [if_neg hj, if_neg hj]
        by_cases hjk : j.val < k.val
        · rw [if_pos hjk, h.colG p j hjk]
          by_cases hjp : j = p
          · subst hjp
            simp [hjk]
          · simp [hjp, Ne.symm hjp]
        · rw [if_neg hjk]
          by_cases hjp : j = p
          · subst hjp
            simp [hjk]
          · simp [hjp]
    rw [Finset.sum_congr rfl fun j _ => this j, Finset.sum_add_distrib, Finset.sum_ite_eq' Finset.univ k,
      Finset.sum_ite_eq' Finset.univ p, if_pos (Finset.mem_univ _), if_pos (Finset.mem_univ _)]
    by_cases hp : p.val < k.val
    · rw [if_pos hp]
      simp
    · rw [if_neg hp, hno p (by rw [Fin.le_def]; omega)]
      simp

/-- The step, when the pivot is not small. -/
theorem GJ.step {A : Matrix (Fin n) (Fin n) ℤ} {P G : Matrix (Fin n) (Fin n) ℝ} {k : Fin n}
    (h : GJ k.val A P G) (hb : |(lead A k.val k.2.le).det| ≤ 1000000) (hk : 1 / 1000000 ≤ |G k k|) :
    GJ (k.val + 1) A (stepMat G k * P) (stepMat G k * G) := by
  have hk0 : G k k ≠ 0 := ne_zero_of_not_small (not_lt.2 hk)
  have hmul : ∀ p, p ≠ k → mulOf G k k p = G p k / G k k := by
    intro p hp
    unfold mulOf
    by_cases hs : 1 / 1000000 ≤ |G p k|
    · rw [if_pos ⟨hp, hs⟩]
    · rw [if_neg (fun hh => hs hh.2), h.gap k.2.le hb p k (not_le.1 hs), zero_div]
  have hent : ∀ (X : Matrix (Fin n) (Fin n) ℝ) (p j : Fin n), (stepMat G k * X) p j =
      if p = k then X k j / G k k else X p j - G p k / G k k * X k j := by
    intro X p j
    rw [stepMat, if_neg (not_lt.2 hk), Matrix.mul_assoc, normMat_mul, elimMat_mul, elimMat_mul, mulOf_self]
    by_cases hp : p = k
    · rw [if_pos hp, if_pos hp]
      ring
    · rw [if_neg hp, if_neg hp, hmul p hp]
  refine ⟨?_, ?_, ?_, ?_⟩
  · rw [Matrix.mul_assoc, ← h.prod]
  · intro p q hq
    have hkq : ¬k = q := by
      rintro rfl
      omega
    rw [hent, h.colP k q (by omega), h.colP p q (by omega), if_neg hkq]
    by_cases hp : p = k
    · rw [if_pos hp, hp, if_neg hkq]
      simp
    · rw [if_neg hp]
      ring
  · intro p j hj
    rw [hent]
    by_cases hjk : j = k
    · subst hjk
      by_cases hp : p = j
      · rw [if_pos hp, if_pos hp, div_self hk0]
      · rw [if_neg hp, if_neg hp]
        field_simp
        ring
    · have hlt : j.val < k.val := by
        have : j.val ≠ k.val := fun he => hjk (Fin.ext he)
        omega
      rw [h.colG k j hlt, h.colG p j hlt, if_neg (Ne.symm hjk)]
      by_cases hp : p = k
      · rw [if_pos hp, hp, if_neg (Ne.symm hjk)]
        simp
      · rw [if_neg hp]
        ring
  · rw [Matrix.det_mul]
    have := (Matrix.isUnit_iff_isUnit_det _).1 (stepMat_isUnit G k)
    exact mul_ne_zero this.ne_zero h.det

/-- The addition of a lower row. -/
theorem GJ.pivot {A : Matrix (Fin n) (Fin n) ℤ} {P G : Matrix (Fin n) (Fin n) ℝ} {k q : Fin n}
    (h : GJ k.val A P G) (hq : k < q) :
    GJ k.val (A.updateRow k (A k + A q)) (Matrix.transvection k q 1 * P * Matrix.transvection k q (-1))
      (Matrix.transvection k q 1 * G) := by
  have hkq : k ≠ q := ne_of_lt hq
  have hcast : (A.updateRow k (A k + A q)).map (Int.cast : ℤ → ℝ) =
      Matrix.transvection k q 1 * A.map (Int.cast : ℤ → ℝ) := by
    ext a b
    rw [transvection_mul_eq]
    by_cases ha : a = k
    · subst ha
      simp [Matrix.updateRow_self]
    · simp [ha]
  have hinv : (Matrix.transvection k q (-1) : Matrix (Fin n) (Fin n) ℝ) * Matrix.transvection k q 1 = 1 := by
    rw [Matrix.transvection_mul_transvection_same k q hkq]
    simp
  refine ⟨?_, ?_, ?_, ?_⟩
  · rw [hcast, Matrix.mul_assoc, ← Matrix.mul_assoc (Matrix.transvection k q (-1)), hinv, Matrix.one_mul,
      Matrix.mul_assoc, ← h.prod]
  · intro p c hc
    have hr : ∀ a : Fin n, (P * (Matrix.transvection k q (-1) : Matrix (Fin n) (Fin n) ℝ)) a c =
        (if a = c then 1 else 0) - if c = q then (if a = k then 1 else 0) else 0 := by
      intro a
      by_cases hcq : c = q
      · subst hcq
        rw [Matrix.mul_transvection_apply_same, h.colP a c hc, h.colP a k le_rfl, if_pos rfl]
        ring
      · rw [Matrix.mul_transvection_apply_of_ne _ _ _ _ hcq, h.colP a c hc, if_neg hcq, sub_zero]
    rw [Matrix.mul_assoc, transvection_mul_eq, hr, hr, hr]
    by_cases hp : p = k
    · subst hp
      rw [if_pos rfl, if_pos rfl, if_neg (Ne.symm hkq)]
      by_cases hcq : c = q
      · subst hcq
        simp
      · rw [if_neg hcq, if_neg hcq, if_neg (Ne.symm hcq)]
        ring
    · rw [if_neg hp, if_neg hp]
      simp
  · intro p j hj
    rw [transvection_mul_eq, h.colG k j hj, h.colG q j hj, h.colG p j hj]
    have h1 : k ≠ j := by
      rintro rfl
      omega
    have h2 : q ≠ j := by
      rintro rfl
      rw [Fin.lt_def] at hq
      omega
    by_cases hp : p = k
    · rw [if_pos hp, if_neg h1, if_neg h2, hp, if_neg h1]
      ring
    · rw [if_neg hp]
  · rw [Matrix.det_mul, Matrix.det_transvection_of_ne _ _ hkq, one_mul]
    exact h.det

/-- The elimination inverts `A` if the leading minors that occur are at most a million. `S k` is the set of the matrices that the
row additions can have produced before step `k`. -/
theorem mtxInv_of_steps (junk : ℕ → XR) (A : Matrix (Fin n) (Fin n) ℤ) (B : Matrix (Fin n) (Fin n) ℝ)
    (t u : List XR) (hn : 0 < n) (hdet : A.det ≠ 0) (S : ℕ → Matrix (Fin n) (Fin n) ℤ → Prop) (hS0 : S 0 A)
    (hSb : ∀ k (hk : k ≤ n) A', S k A' → |(lead A' k hk).det| ≤ 1000000)
    (hSn : ∀ (k : Fin n) A', S k A' → (lead A' (k.val + 1) k.2).det ≠ 0 → S (k.val + 1) A')
    (hSp : ∀ (k q : Fin n) A', S k A' → (lead A' (k.val + 1) k.2).det = 0 → k < q →
      S (k.val + 1) (A'.updateRow k (A' k + A' q))) :
    ∃ C : Matrix (Fin n) (Fin n) ℝ, mtxInv junk (mat (A.map (Int.cast : ℤ → ℝ)) t) (mat B u) = ok (0, mat C u) ∧
      A.map (Int.cast : ℤ → ℝ) * C = 1 ∧ C * A.map (Int.cast : ℤ → ℝ) = 1 := by
  have hdetR : (A.map (Int.cast : ℤ → ℝ)).det ≠ 0 := by
    rw [← Int.cast_det]
    exact_mod_cast hdet
  by_cases h3 : n = 3
  · subst h3
    unfold mtxInv
    rw [if_pos (by rfl)]
    exact mtx_inv_3x3_correct _ _ (B.map XR.fin) t u hdetR
  obtain ⟨M₀, hM₀⟩ := uninit_eq junk n n
  have hcopy : mtxCopy (Mtx.uninit junk n n) (mat (A.map (Int.cast : ℤ → ℝ)) t) =
      ok (0, mat (A.map (Int.cast : ℤ → ℝ)) []) := by
    rw [hM₀]
    exact mtx_copy_correct _ _ _ _
  obtain ⟨n', rfl⟩ := Nat.exists_eq_succ_of_ne_zero (by omega : n ≠ 0)
  obtain ⟨M, N, ⟨A', P, T, -, hGJ, hT, hN⟩, hres⟩ := mtxGaussReduc_spec junk (A.map (Int.cast : ℤ → ℝ)) 1
    (A.map (Int.cast : ℤ → ℝ)) t u [] hn
    (fun k M N => ∃ (A' : Matrix (Fin (n' + 1)) (Fin (n' + 1)) ℤ) (P T : Matrix (Fin (n' + 1)) (Fin (n' + 1)) ℝ),
      S k A' ∧ GJ k A' P M ∧ T * A.map (Int.cast : ℤ → ℝ) = A'.map (Int.cast : ℤ → ℝ) ∧ N = P * T)
    ⟨A, 1, 1, hS0, ⟨by rw [one_mul], fun p q _ => by rw [Matrix.one_apply], fun p j hj => absurd hj (by omega),
      hdetR⟩, by rw [one_mul], by rw [one_mul]⟩ (by
      rintro k M N Q ⟨A', P, T, hS, hGJ, hT, rfl⟩ hQ
      have hb := hSb k.val k.2.le A' hS
      rcases hQ with ⟨hk, rfl⟩ | ⟨hk, rfl, hno⟩ | ⟨hk, q, hqk, hq, hadm, rfl⟩
      · rw [one_mul, one_mul]
        have hs := hGJ.step hb hk
        exact ⟨A', _, T, hSn k A' hS (hs.lead_det k.2), hs, hT, by rw [Matrix.mul_assoc]⟩
      · exfalso
        obtain ⟨q, hkq, hq⟩ := hGJ.below
        rcases hno q with h1 | h1
        · exact hq (hGJ.gap k.2.le hb q k h1)
        · exact absurd h1.1 (not_lt.2 hkq)
      · have h0 : M k k = 0 := hGJ.gap k.2.le hb k k hk
        have hlt : k < q := by
          by_contra hge
          have hqk' : q < k := lt_of_le_of_ne (not_lt.1 hge) hqk
          apply hadm
          refine ⟨hqk', ?_⟩
          rw [hGJ.colG q q hqk', if_pos rfl]
          norm_num
        have hp := hGJ.pivot hlt
        have hkk : 1 / 1000000 ≤ |((Matrix.transvection k q 1 : Matrix (Fin (n' + 1)) (Fin (n' + 1)) ℝ) * M) k k| := by
          rw [transvection_mul_eq, if_pos rfl, h0, one_mul, zero_add]
          exact hq
        have hb' : |(lead (A'.updateRow k (A' k + A' q)) k.val k.2.le).det| ≤ 1000000 := by
          have : lead (A'.updateRow k (A' k + A' q)) k.val k.2.le = lead A' k.val k.2.le := by
            ext a b
            simp only [lead, Matrix.submatrix_apply]
            rw [Matrix.updateRow_ne]
            intro he
            have := congrArg Fin.val he
            simp at this
            omega
          rw [this]
          exact hb
        have hs := hp.step hb' hkk
        have hcast : (A'.updateRow k (A' k + A' q)).map (Int.cast : ℤ → ℝ) =
            Matrix.transvection k q 1 * A'.map (Int.cast : ℤ → ℝ) := by
          ext a b
          rw [transvection_mul_eq]
          by_cases ha : a = k
          · subst ha
            simp [Matrix.updateRow_self]
          · simp [ha]
        refine ⟨_, _, (Matrix.transvection k q 1 : Matrix (Fin (n' + 1)) (Fin (n' + 1)) ℝ) * T, hSp k q A' hS (hGJ.pivot_zero h0) hlt, hs, ?_, ?_⟩
        · rw [Matrix.mul_assoc, hT, hcast]
        · have hinv : (Matrix.transvection k q (-1) : Matrix (Fin (n' + 1)) (Fin (n' + 1)) ℝ) *
              Matrix.transvection k q 1 = 1 := by
            rw [Matrix.transvection_mul_transvection_same k q (ne_of_lt hlt)]
            simp
          simp only [Matrix.mul_assoc]
          rw [← Matrix.mul_assoc (Matrix.transvection k q (-1)), hinv, Matrix.one_mul])
  have hM1 : M = 1 := by
    ext p j
    rw [hGJ.colG p j j.2, Matrix.one_apply]
  have hleft : N * A.map (Int.cast : ℤ → ℝ) = 1 := by
    rw [hN, Matrix.mul_assoc, hT, ← hGJ.prod, hM1]
  refine ⟨N, ?_, mul_eq_one_comm.1 hleft, hleft⟩
  unfold mtxInv
  rw [if_neg (by simpa using h3), if_neg (by simp), if_neg (by simp), if_neg (by simp), if_neg (by simp)]
  rw [mat_rows, mat_cols, hcopy]
  simp only [ok_bind, ne_eq, not_true_eq_false, if_false]
  rw [mtx_init_identity_real]
  simp only [ok_bind, not_true_eq_false, if_false]
  rw [mtx_deter_correct]
  simp only [ok_bind, XR.lit_eq, Rat.cast_zero]
  rw [if_neg (by simpa using hdetR), hres]
  rfl

/-- C26 `_partial`. For every integer matrix whose leading principal minors are non-zero and at most a million in magnitude,
`zsl_mtx_inv` stores the two-sided inverse. Missing: other invertible matrices; the claim is false for some of them
(`mtx_inv_small_pivot`), because an entry below 1e-6 counts as zero. -/
theorem mtx_inv_minors_partial (junk : ℕ → XR) (A : Matrix (Fin n) (Fin n) ℤ) (B : Matrix (Fin n) (Fin n) ℝ)
    (t u : List XR) (hn : 0 < n)
    (hm : ∀ k (hk : k ≤ n), (A.submatrix (Fin.castLE hk) (Fin.castLE hk)).det ≠ 0 ∧
      |(A.submatrix (Fin.castLE hk) (Fin.castLE hk)).det| ≤ 1000000) :
    ∃ C : Matrix (Fin n) (Fin n) ℝ, mtxInv junk (mat (A.map (Int.cast : ℤ → ℝ)) t) (mat B u) = ok (0, mat C u) ∧
      A.map (Int.cast : ℤ → ℝ) * C = 1 ∧ C * A.map (Int.cast : ℤ → ℝ) = 1 := by
  refine mtxInv_of_steps junk A B t u hn ?_ (fun _ A' => A' = A) rfl ?_ ?_ ?_
  · have := (hm n le_rfl).1
    exact this
  · rintro k hk A' rfl
    exact (hm k hk).2
  · rintro k A' rfl _
    rfl
  · rintro k q A' rfl h0 _
    exact absurd h0 (hm _ _).1

/-- C26 `_partial`. For every integer matrix with non-zero determinant and entries at most `b` in magnitude, where
`n! * (2 b)^n` is at most a million (for example `b = 7` for 4x4), `zsl_mtx_inv` stores the two-sided inverse: row exchanges are
handled. -/
theorem mtx_inv_entries_partial (junk : ℕ → XR) (A : Matrix (Fin n) (Fin n) ℤ) (B : Matrix (Fin n) (Fin n) ℝ)
    (t u : List XR) (hn : 0 < n) (hdet : A.det ≠ 0) (b : ℕ) (hA : ∀ i j, |A i j| ≤ b)
    (hb : n.factorial * (2 * b) ^ n ≤ 1000000) :
    ∃ C : Matrix (Fin n) (Fin n) ℝ, mtxInv junk (mat (A.map (Int.cast : ℤ → ℝ)) t) (mat B u) = ok (0, mat C u) ∧
      A.map (Int.cast : ℤ → ℝ) * C = 1 ∧ C * A.map (Int.cast : ℤ → ℝ) = 1 := by
  have hb1 : 1 ≤ b := by
    by_contra h0
    obtain rfl : b = 0 := by omega
    apply hdet
    have : A = 0 := by
      ext i j
      have := hA i j
      simpa using this
    obtain ⟨n', rfl⟩ := Nat.exists_eq_succ_of_ne_zero (by omega : n ≠ 0)
    rw [this, Matrix.det_zero]
  refine mtxInv_of_steps junk A B t u hn hdet
    (fun k A' => (∀ i j, |A' i j| ≤ 2 * b) ∧ ∀ i j : Fin n, k ≤ i.val → |A' i j| ≤ b) ?_ ?_ ?_ ?_
  · exact ⟨fun i j => (hA i j).trans (by omega), fun i j _ => hA i j⟩
  · rintro k hk A' ⟨h1, _⟩
    have := Matrix.det_le (A := lead A' k hk) (abv := AbsoluteValue.abs) (x := (2 * b : ℤ))
      (fun i j => h1 _ _)
    refine le_trans this ?_
    rw [Fintype.card_fin, nsmul_eq_mul]
    have h2 : k.factorial * (2 * b) ^ k ≤ n.factorial * (2 * b) ^ n :=
      Nat.mul_le_mul (Nat.factorial_le hk) (Nat.pow_le_pow_right (by omega) hk)
    exact_mod_cast h2.trans hb
  · rintro k A' ⟨h1, h2⟩ _
    exact ⟨h1, fun i j hi => h2 i j (by omega)⟩
  · rintro k q A' ⟨h1, h2⟩ _ hkq
    have hkq' : k.val < q.val := hkq
    refine ⟨fun i j => ?_, fun i j hi => ?_⟩
    · by_cases hik : i = k
      · subst hik
        rw [Matrix.updateRow_self]
        have ha := h2 i j le_rfl
        have hb := h2 q j hkq'.le
        have := abs_add_le (A' i j) (A' q j)
        simp only [Pi.add_apply]
        omega
      · rw [Matrix.updateRow_ne hik]
        exact h1 i j
    · rw [Matrix.updateRow_ne (by rintro rfl; omega)]
      exact h2 i j (by omega)

/-- C26. With zero determinant the identity is stored, for every size. -/
theorem mtx_inv_singular (junk : ℕ → XR) (A B : Matrix (Fin n) (Fin n) ℝ) (t u : List XR) (hn : 0 < n)
    (hdet : A.det = 0) :
    mtxInv junk (mat A t) (mat B u) = ok (0, mat (1 : Matrix (Fin n) (Fin n) ℝ) u) := by
  by_cases h3 : n = 3
  · subst h3
    unfold mtxInv
    rw [if_pos (by rfl)]
    exact mtx_inv_3x3_singular _ A (B.map XR.fin) t u hdet
  obtain ⟨M₀, hM₀⟩ := uninit_eq junk n n
  have hcopy : mtxCopy (Mtx.uninit junk n n) (mat A t) = ok (0, mat A []) := by
    rw [hM₀]
    exact mtx_copy_correct _ _ _ _
  obtain ⟨n', rfl⟩ := Nat.exists_eq_succ_of_ne_zero (by omega : n ≠ 0)
  unfold mtxInv
  rw [if_neg (by simpa using h3), if_neg (by simp), if_neg (by simp), if_neg (by simp), if_neg (by simp)]
  rw [mat_rows, mat_cols, hcopy]
  simp only [ok_bind, ne_eq, not_true_eq_false, if_false]
  rw [mtx_init_identity_real]
  simp only [ok_bind, not_true_eq_false, if_false]
  rw [mtx_deter_correct]
  simp only [ok_bind, XR.lit_eq, Rat.cast_zero]
  rw [if_pos (by simpa using hdet)]
  rfl

/-- C26. For every 3x3 matrix with non-zero determinant the two-sided inverse is stored. -/
theorem mtx_inv_size3 (junk : ℕ → XR) (A B : Matrix (Fin 3) (Fin 3) ℝ) (t u : List XR) (hdet : A.det ≠ 0) :
    ∃ C : Matrix (Fin 3) (Fin 3) ℝ, mtxInv junk (mat A t) (mat B u) = ok (0, mat C u) ∧ A * C = 1 ∧ C * A = 1 := by
  unfold mtxInv
  rw [if_pos (by rfl)]
  exact mtx_inv_3x3_correct _ A (B.map XR.fin) t u hdet

/-- C26, negation: the 1x1 matrix `10⁻⁷` is invertible, but the identity is stored. -/
theorem mtx_inv_small_pivot (junk : ℕ → XR) (B : Matrix (Fin 1) (Fin 1) ℝ) (u : List XR) :
    mtxInv junk (mat !![1 / 10000000] []) (mat B u) = ok (0, mat (1 : Matrix (Fin 1) (Fin 1) ℝ) u) ∧
    (!![1 / 10000000] : Matrix (Fin 1) (Fin 1) ℝ) * 1 ≠ 1 ∧
    (!![1 / 10000000] : Matrix (Fin 1) (Fin 1) ℝ).det ≠ 0 := by
  have hd : (!![1 / 10000000] : Matrix (Fin 1) (Fin 1) ℝ).det ≠ 0 := by
    rw [Matrix.det_fin_one]
    simp
  refine ⟨?_, ?_, hd⟩
  · obtain ⟨M₀, hM₀⟩ := uninit_eq junk 1 1
    have hcopy : mtxCopy (Mtx.uninit junk 1 1) (mat !![1 / 10000000] []) = ok (0, mat !![1 / 10000000] []) := by
      rw [hM₀]
      exact mtx_copy_correct _ _ _ _
    obtain ⟨M, N, ⟨hM, hN⟩, hres⟩ := mtxGaussReduc_spec junk !![1 / 10000000] 1 !![1 / 10000000] [] u []
      (by omega) (fun _ M N => M = !![1 / 10000000] ∧ N = 1) ⟨rfl, rfl⟩ (by
        rintro k M N Q ⟨rfl, rfl⟩ hQ
        obtain rfl : k = 0 := Subsingleton.elim _ _
        have hsmall : |(!![1 / 10000000] : Matrix (Fin 1) (Fin 1) ℝ) 0 0| < 1 / 1000000 := by
          simp
          norm_num
        have hQ1 : Q = 1 := by
          rcases hQ with ⟨h, rfl⟩ | ⟨_, rfl, _⟩ | ⟨_, q, hq, _⟩
          · rfl
          · rfl
          · exact absurd (Subsingleton.elim q 0) hq
        subst hQ1
        rw [one_mul, one_mul, stepMat, if_pos hsmall, one_mul, one_mul]
        exact ⟨rfl, rfl⟩)
    unfold mtxInv
    rw [if_neg (by simp), if_neg (by simp), if_neg (by simp), if_neg (by simp), if_neg (by simp)]
    rw [mat_rows, mat_cols, hcopy]
    simp only [ok_bind, ne_eq, not_true_eq_false, if_false]
    rw [mtx_init_identity_real]
    simp only [ok_bind, not_true_eq_false, if_false]
    rw [mtx_deter_correct]
    simp only [ok_bind, XR.lit_eq, Rat.cast_zero]
    rw [if_neg (by rw [XR.fin_eq]; exact hd), hres, hN]
    rfl
  · intro h
    have := congrFun (congrFun h 0) 0
    simp at this

/-- C26. Shapes that do not fit are refused, and the output does not change. -/
theorem mtx_inv_shape {R : Type} [CReal R] (junk : ℕ → R) (m mi : Mtx R)
    (h : m.rows ≠ m.cols ∨ mi.rows ≠ mi.cols ∨ m.rows ≠ mi.rows) : mtxInv junk m mi = ok (-EINVAL, mi) := by
  unfold mtxInv
  split_ifs with h1 h2 h3 h4 h5 <;> first | rfl | (exfalso; omega) | skip
  apply mtx_inv_3x3_shape
  omega

/-- Non-vacuity of `mtx_inv_entries_partial`: a 4x4 permutation-like matrix with a zero diagonal. -/
example : (!![0, 1, 0, 0; 1, 0, 0, 0; 0, 0, 2, 3; 0, 0, 1, 0] : Matrix (Fin 4) (Fin 4) ℤ).det ≠ 0 ∧
    (∀ i j, |(!![0, 1, 0, 0; 1, 0, 0, 0; 0, 0, 2, 3; 0, 0, 1, 0] : Matrix (Fin 4) (Fin 4) ℤ) i j| ≤ (3 : ℕ)) ∧
    Nat.factorial 4 * (2 * 3) ^ 4 ≤ 1000000 := by
  refine ⟨by decide +kernel, by decide +kernel, by decide +kernel⟩

/-- Non-vacuity of `mtx_inv_minors_partial`. -/
example : ∀ k (hk : k ≤ 4), ((!![2, 1, 0, 0; 1, 2, 1, 0; 0, 1, 2, 1; 0, 0, 1, 2] :
    Matrix (Fin 4) (Fin 4) ℤ).submatrix (Fin.castLE hk) (Fin.castLE hk)).det ≠ 0 ∧
    |((!![2, 1, 0, 0; 1, 2, 1, 0; 0, 1, 2, 1; 0, 0, 1, 2] :
    Matrix (Fin 4) (Fin 4) ℤ).submatrix (Fin.castLE hk) (Fin.castLE hk)).det| ≤ 1000000 := by
  intro k hk
  interval_cases k <;> revert hk <;> decide +kernel

end Verif
