import Verif.Props.Inv2
import Verif.Props.Stat5

/-!
# The inverse as the exact inverse of a nearby matrix (C26)

`zsl_mtx_inv` leaves numbers below 1e-6 in the column it eliminates. What it stores is then not the inverse of its input, but it is the inverse
of a matrix that is close to its input, and how close is stated here.
-/

set_option linter.unusedSectionVars false

namespace Verif

open Out Matrix

variable {n : ℕ}

/-- The elimination never has to look for a pivot: the diagonal element is never below 1e-6. -/
def PivotsOK (A : Matrix (Fin n) (Fin n) ℝ) : Prop :=
  ∀ (k : Fin n) (M : Matrix (Fin n) (Fin n) ℝ), Reach A k M → 1 / 1000000 ≤ |M k k|

/-- How far the matrix that is really inverted can be from the one given, in row `i`. -/
noncomputable def invTol (A : Matrix (Fin n) (Fin n) ℝ) (i : Fin n) : ℝ :=
  1 / 1000000 * ((1 + ∑ j, |A i j|) * (1 + 1 / 1000000) ^ n)

/-- The state before step `k`: the operations so far, `N`, turn `A` into `M`, and turn a nearby `A'` into a matrix whose first `k` columns are
those of the identity. -/
structure NearElim (A : Matrix (Fin n) (Fin n) ℝ) (k : ℕ) (M N A' : Matrix (Fin n) (Fin n) ℝ) : Prop where
  prod : M = N * A
  colN : ∀ p q : Fin n, k ≤ q.val → N p q = if p = q then 1 else 0
  col : ∀ p j : Fin n, j.val < k → (N * A') p j = if p = j then 1 else 0
  tail : ∀ p j : Fin n, k ≤ j.val → A' p j = A p j
  row : ∀ p, 1 + ∑ j, |A' p j| ≤ (1 + ∑ j, |A p j|) * (1 + 1 / 1000000) ^ k
  near : ∀ p j, |A' p j - A p j| ≤ 1 / 1000000 * ((1 + ∑ j, |A p j|) * (1 + 1 / 1000000) ^ k)

theorem NearElim.start (A : Matrix (Fin n) (Fin n) ℝ) : NearElim A 0 A 1 A where
  prod := (one_mul _).symm
  colN p q _ := Matrix.one_apply
  col p j h := absurd h (Nat.not_lt_zero _)
  tail _ _ _ := rfl
  row p := by simp
  near p j := by
    rw [sub_self, abs_zero]
    have : 0 ≤ ∑ j, |A p j| := Finset.sum_nonneg fun _ _ => abs_nonneg _
    positivity

/-- Column `k` has not been touched yet. -/
theorem NearElim.colk {A M N A' : Matrix (Fin n) (Fin n) ℝ} {k : Fin n} (h : NearElim A k M N A') (p : Fin n) :
    (N * A') p k = M p k := by
  rw [h.prod, Matrix.mul_apply, Matrix.mul_apply]
  exact Finset.sum_congr rfl fun q _ => by rw [h.tail q k le_rfl]

theorem stepMat_mul_apply {M : Matrix (Fin n) (Fin n) ℝ} {k : Fin n} (hp : 1 / 1000000 ≤ |M k k|) (X : Matrix (Fin n) (Fin n) ℝ) (a b : Fin n) :
    (stepMat M k * X) a b = if a = k then X k b / M k k else X a b - mulOf M k k a * X k b := by
  unfold stepMat
  rw [if_neg (not_lt.2 hp), Matrix.mul_assoc, normMat_mul]
  have hk : mulOf M k k k = 0 := by
    unfold mulOf
    rw [if_neg (by simp)]
  split_ifs with ha
  · rw [elimMat_mul, hk, zero_mul, sub_zero]
  · rw [elimMat_mul]

theorem NearElim.step {A M N A' : Matrix (Fin n) (Fin n) ℝ} {k : Fin n} (h : NearElim A k M N A') (hp : 1 / 1000000 ≤ |M k k|) :
    ∃ A'', NearElim A (k.val + 1) (stepMat M k * M) (stepMat M k * N) A'' := by
  have hM0 : M k k ≠ 0 := ne_zero_of_not_small (not_lt.2 hp)
  -- what is left in the column
  obtain ⟨e, he⟩ : ∃ e : Fin n → ℝ, ∀ p, e p = if p ≠ k ∧ |M p k| < 1 / 1000000 then M p k else 0 := ⟨_, fun _ => rfl⟩
  have hek : e k = 0 := by rw [he, if_neg (by simp)]
  have hes : ∀ p, |e p| ≤ 1 / 1000000 := by
    intro p
    rw [he]
    split_ifs with hh
    · exact hh.2.le
    · norm_num
  obtain ⟨d, hd⟩ : ∃ d : Fin n → ℝ, ∀ p, d p = (∑ j : Fin n, if j.val < k.val then e j * A' p j else 0) + if k.val ≤ p.val then e p else 0 :=
    ⟨_, fun _ => rfl⟩
  -- pulled back through the operations
  have hNd : ∀ p, ∑ q, N p q * d q = e p := by
    intro p
    have h1 : ∑ q, N p q * (∑ j : Fin n, if j.val < k.val then e j * A' q j else 0) = if p.val < k.val then e p else 0 := by
      simp only [Finset.mul_sum]
      rw [Finset.sum_comm]
      have h2 : ∀ j : Fin n, (∑ q, N p q * if j.val < k.val then e j * A' q j else 0) = if j = p then (if p.val < k.val then e p else 0) else 0 := by
        intro j
        by_cases hj : j.val < k.val
        · simp only [if_pos hj]
          have h3 : (∑ q, N p q * (e j * A' q j)) = e j * (N * A') p j := by
            rw [Matrix.mul_apply, Finset.mul_sum]
            exact Finset.sum_congr rfl fun q _ => by ring
          rw [h3, h.col p j hj]
          by_cases hjp : j = p
          · subst hjp
            simp [hj]
          · rw [if_neg (Ne.symm hjp), if_neg hjp, mul_zero]
        · simp only [if_neg hj, mul_zero, Finset.sum_const_zero]
          by_cases hjp : j = p
          · subst hjp
            simp [hj]
          · rw [if_neg hjp]
      rw [Finset.sum_congr rfl fun j _ => h2 j, Finset.sum_ite_eq' Finset.univ p, if_pos (Finset.mem_univ _)]
    have h2 : ∑ q : Fin n, N p q * (if k.val ≤ q.val then e q else 0) = if k.val ≤ p.val then e p else 0 := by
      have h3 : ∀ q : Fin n, N p q * (if k.val ≤ q.val then e q else 0) = if q = p then (if k.val ≤ p.val then e p else 0) else 0 := by
        intro q
        by_cases hq : k.val ≤ q.val
        · rw [if_pos hq, h.colN p q hq]
          by_cases hqp : q = p
          · subst hqp
            simp [hq]
          · rw [if_neg (Ne.symm hqp), if_neg hqp, zero_mul]
        · rw [if_neg hq, mul_zero]
          by_cases hqp : q = p
          · subst hqp
            simp [hq]
          · rw [if_neg hqp]
      rw [Finset.sum_congr rfl fun j _ => h3 j, Finset.sum_ite_eq' Finset.univ p, if_pos (Finset.mem_univ _)]
    simp only [hd, mul_add, Finset.sum_add_distrib]
    rw [h1, h2]
    by_cases hpk : p.val < k.val
    · rw [if_pos hpk, if_neg (by omega), add_zero]
    · rw [if_neg hpk, if_pos (by omega), zero_add]
  have hds : ∀ p, |d p| ≤ 1 / 1000000 * ((1 + ∑ j, |A p j|) * (1 + 1 / 1000000) ^ k.val) := by
    intro p
    refine le_trans ?_ (mul_le_mul_of_nonneg_left (h.row p) (by norm_num))
    rw [hd, mul_add, add_comm]
    refine (abs_add_le _ _).trans (add_le_add ?_ ?_)
    · split_ifs
      · rw [mul_one]
        exact hes p
      · norm_num
    · refine (Finset.abs_sum_le_sum_abs _ _).trans ?_
      rw [Finset.mul_sum]
      refine Finset.sum_le_sum fun j _ => ?_
      split_ifs
      · rw [abs_mul]
        exact mul_le_mul_of_nonneg_right (hes j) (abs_nonneg _)
      · rw [abs_zero]
        positivity
  obtain ⟨A'', hA''⟩ : ∃ A'' : Matrix (Fin n) (Fin n) ℝ, ∀ p j, A'' p j = A' p j - if j = k then d p else 0 := ⟨Matrix.of _, fun _ _ => rfl⟩
  have hNA : ∀ p j, (N * A'') p j = (N * A') p j - if j = k then e p else 0 := by
    intro p j
    rw [Matrix.mul_apply, Matrix.mul_apply]
    simp only [hA'', mul_sub, Finset.sum_sub_distrib]
    congr 1
    by_cases hj : j = k
    · simp only [if_pos hj]
      exact hNd p
    · simp only [if_neg hj, mul_zero, Finset.sum_const_zero]
  have hpow : (1 + 1 / 1000000 : ℝ) ^ k.val ≤ (1 + 1 / 1000000) ^ (k.val + 1) := pow_le_pow_right₀ (by norm_num) (Nat.le_succ _)
  have hrho : ∀ p, 0 ≤ ∑ j, |A p j| := fun p => Finset.sum_nonneg fun _ _ => abs_nonneg _
  have hgrow : ∀ p, 1 / 1000000 * ((1 + ∑ j, |A p j|) * (1 + 1 / 1000000 : ℝ) ^ k.val) ≤
      1 / 1000000 * ((1 + ∑ j, |A p j|) * (1 + 1 / 1000000) ^ (k.val + 1)) := fun p =>
    mul_le_mul_of_nonneg_left (mul_le_mul_of_nonneg_left hpow (by linarith [hrho p])) (by norm_num)
  refine ⟨A'', ?_, ?_, ?_, ?_, ?_, ?_⟩
  · rw [h.prod, Matrix.mul_assoc]
  · intro p q hq
    rw [stepMat_mul_apply hp, h.colN k q (by omega), if_neg (fun hk : k = q => by rw [← hk] at hq; omega), h.colN p q (by omega)]
    split_ifs with h1 h2 h2
    · subst h1; subst h2; omega
    · simp
    · simp
    · simp
  · intro p j hj
    rw [Matrix.mul_assoc, stepMat_mul_apply hp]
    rcases Nat.lt_succ_iff_lt_or_eq.1 hj with hj | hj
    · have hjk : j ≠ k := fun hh => by rw [hh] at hj; omega
      simp only [hNA, if_neg hjk, sub_zero]
      rw [h.col k j hj, if_neg hjk.symm, h.col p j hj]
      split_ifs with h1 h2 h2
      · subst h1; exact absurd h2.symm hjk
      · simp
      · simp
      · simp
    · obtain rfl : j = k := Fin.ext hj
      simp only [hNA, if_true, hek, sub_zero, h.colk]
      by_cases hpj : p = j
      · rw [if_pos hpj, if_pos hpj, div_self hM0]
      · rw [if_neg hpj, if_neg hpj, he]
        unfold mulOf
        by_cases ht : |M p j| < 1 / 1000000
        · rw [if_pos ⟨hpj, ht⟩, if_neg (fun hh => absurd ht (not_lt.2 hh.2))]
          ring
        · rw [if_neg (fun hh => ht hh.2), if_pos ⟨hpj, not_lt.1 ht⟩, div_mul_cancel₀ _ hM0]
          ring
  · intro p j hj
    rw [hA'', if_neg (fun hh => by rw [hh] at hj; omega), sub_zero]
    exact h.tail p j (by omega)
  · intro p
    have h1 : ∑ j, |A'' p j| ≤ ∑ j, |A' p j| + |d p| := by
      calc ∑ j, |A'' p j| ≤ ∑ j, (|A' p j| + if j = k then |d p| else 0) := by
            refine Finset.sum_le_sum fun j _ => ?_
            rw [hA'']
            split_ifs
            · exact abs_sub _ _
            · simp
        _ = _ := by
            rw [Finset.sum_add_distrib, Finset.sum_ite_eq' Finset.univ k, if_pos (Finset.mem_univ _)]
    have h2 := h.row p
    have h3 := hds p
    rw [pow_succ]
    nlinarith [hrho p]
  · intro p j
    rw [hA'']
    by_cases hj : j = k
    · rw [if_pos hj, h.tail p j (by rw [hj]), sub_sub_cancel_left, abs_neg]
      exact (hds p).trans (hgrow p)
    · rw [if_neg hj, sub_zero]
      exact (h.near p j).trans (hgrow p)

/-- C26. For an invertible matrix whose elimination needs no search for a pivot, `zsl_mtx_inv` stores the exact two-sided inverse of a matrix
that differs from the one given, in row `i`, by at most about 1e-6 times (1 + the sum of the absolute values in row `i`). -/
theorem mtx_inv_backward (junk : ℕ → XR) (A B : Matrix (Fin n) (Fin n) ℝ) (t u : List XR) (hn : 0 < n) (hdet : A.det ≠ 0)
    (hA : PivotsOK A) : ∃ C A' : Matrix (Fin n) (Fin n) ℝ, mtxInv junk (mat A t) (mat B u) = ok (0, mat C u) ∧ C * A' = 1 ∧ A' * C = 1 ∧
      ∀ i j, |A' i j - A i j| ≤ invTol A i := by
  by_cases h3 : n = 3
  · subst h3
    obtain ⟨C, h1, h2, h4⟩ := mtx_inv_3x3_correct (junk 0) A (B.map XR.fin) t u hdet
    refine ⟨C, A, ?_, h4, h2, fun i j => ?_⟩
    · unfold mtxInv
      rw [if_pos (by rfl)]
      exact h1
    · rw [sub_self, abs_zero]
      unfold invTol
      have : 0 ≤ ∑ j, |A i j| := Finset.sum_nonneg fun _ _ => abs_nonneg _
      positivity
  obtain ⟨M, N, ⟨-, A', h⟩, hres⟩ := mtxInv_invariant junk A B t u hn h3 hdet
    (fun k M N => Reach A k M ∧ ∃ A', NearElim A k M N A') ⟨.start, A, NearElim.start A⟩ (by
      rintro k M N Q ⟨h1, A', h2⟩ hQ
      have hp := hA k M h1
      have hQ1 : Q = 1 := by
        rcases hQ with ⟨_, rfl⟩ | ⟨hlt, rfl, _⟩ | ⟨hlt, _⟩
        · rfl
        · rfl
        · exact absurd hlt (not_lt.2 hp)
      refine ⟨.step k M Q h1 hQ, ?_⟩
      subst hQ1
      rw [one_mul, one_mul]
      exact h2.step hp)
  have hNA : N * A' = 1 := by
    ext p j
    rw [h.col p j j.2, Matrix.one_apply]
  exact ⟨N, A', hres, hNA, mul_eq_one_comm.1 hNA, h.near⟩

/-! ## Matrices for which no pivot is ever small -/

/-- `x · A x` is at least `μ` times `x · x`. For a symmetric matrix: no eigenvalue is below `μ`. -/
def Coercive (μ : ℝ) (A : Matrix (Fin n) (Fin n) ℝ) : Prop :=
  ∀ x : Fin n → ℝ, μ * ∑ i, x i ^ 2 ≤ ∑ i, x i * (A *ᵥ x) i

theorem Coercive.near {μ δ : ℝ} {A A' : Matrix (Fin n) (Fin n) ℝ} (h : Coercive μ A) (hδ : ∀ i j, |A' i j - A i j| ≤ δ) :
    Coercive (μ - n * δ) A' := by
  intro x
  have h1 : ∑ i, x i * (A *ᵥ x) i - ∑ i, x i * (A' *ᵥ x) i ≤ n * δ * ∑ i, x i ^ 2 := by
    calc ∑ i, x i * (A *ᵥ x) i - ∑ i, x i * (A' *ᵥ x) i = ∑ i, ∑ j, x i * x j * (A i j - A' i j) := by
          rw [← Finset.sum_sub_distrib]
          refine Finset.sum_congr rfl fun i _ => ?_
          simp only [Matrix.mulVec, dotProduct]
          rw [← mul_sub, ← Finset.sum_sub_distrib, Finset.mul_sum]
          exact Finset.sum_congr rfl fun j _ => by ring
      _ ≤ ∑ i, ∑ j, (x i ^ 2 + x j ^ 2) / 2 * δ := by
          refine Finset.sum_le_sum fun i _ => Finset.sum_le_sum fun j _ => ?_
          refine (le_abs_self _).trans ?_
          rw [abs_mul, abs_sub_comm]
          refine mul_le_mul ?_ (hδ i j) (abs_nonneg _) (by positivity)
          rw [abs_mul, ← sq_abs (x i), ← sq_abs (x j)]
          nlinarith [sq_nonneg (|x i| - |x j|)]
      _ = n * δ * ∑ i, x i ^ 2 := by
          simp only [← Finset.sum_mul, ← Finset.sum_div, Finset.sum_add_distrib, Finset.sum_const, Finset.card_univ, Fintype.card_fin,
            nsmul_eq_mul, ← Finset.mul_sum]
          ring
  have h2 := h x
  rw [sub_mul]
  linarith

/-- Every pivot of a coercive matrix is at least the constant. -/
theorem NearElim.pivot {A M N A' : Matrix (Fin n) (Fin n) ℝ} {k : Fin n} {μ : ℝ} (h : NearElim A k M N A') (hN : IsUnit N)
    (hμ : 0 ≤ μ) (hc : Coercive μ A') : μ ≤ M k k := by
  obtain ⟨z, hz⟩ : ∃ z : Fin n → ℝ, ∀ p, z p = (if p = k then 1 else 0) - if p.val < k.val then M p k else 0 := ⟨_, fun _ => rfl⟩
  obtain ⟨w, hw⟩ : ∃ w : Fin n → ℝ, ∀ p, w p = if k.val ≤ p.val then M p k else 0 := ⟨_, fun _ => rfl⟩
  have h1 : N *ᵥ (A' *ᵥ z) = w := by
    rw [Matrix.mulVec_mulVec]
    funext p
    simp only [Matrix.mulVec, dotProduct, hz, mul_sub, Finset.sum_sub_distrib, mul_ite, mul_one, mul_zero]
    rw [Finset.sum_ite_eq' Finset.univ k, if_pos (Finset.mem_univ _), h.colk]
    have h2 : ∀ j : Fin n, (if j.val < k.val then (N * A') p j * M j k else 0) = if j = p then (if p.val < k.val then M p k else 0) else 0 := by
      intro j
      by_cases hj : j.val < k.val
      · rw [if_pos hj, h.col p j hj]
        by_cases hjp : j = p
        · subst hjp
          simp [hj]
        · rw [if_neg (Ne.symm hjp), if_neg hjp, zero_mul]
      · rw [if_neg hj]
        by_cases hjp : j = p
        · subst hjp
          simp [hj]
        · rw [if_neg hjp]
    rw [Finset.sum_congr rfl fun j _ => h2 j, Finset.sum_ite_eq' Finset.univ p, if_pos (Finset.mem_univ _), hw]
    by_cases hpk : p.val < k.val
    · rw [if_pos hpk, if_neg (by omega), sub_self]
    · rw [if_neg hpk, if_pos (by omega), sub_zero]
  have h2 : N *ᵥ w = w := by
    funext p
    simp only [Matrix.mulVec, dotProduct]
    have h3 : ∀ q : Fin n, N p q * w q = if q = p then w p else 0 := by
      intro q
      by_cases hq : k.val ≤ q.val
      · rw [h.colN p q hq]
        by_cases hqp : q = p
        · subst hqp
          simp
        · rw [if_neg (Ne.symm hqp), if_neg hqp, zero_mul]
      · have hw0 : w q = 0 := by rw [hw, if_neg hq]
        rw [hw0, mul_zero]
        by_cases hqp : q = p
        · rw [if_pos hqp, ← hqp, hw0]
        · rw [if_neg hqp]
    rw [Finset.sum_congr rfl fun j _ => h3 j, Finset.sum_ite_eq' Finset.univ p, if_pos (Finset.mem_univ _)]
  have h3 : A' *ᵥ z = w := by
    have hinj := Matrix.mulVec_injective_of_isUnit hN
    exact hinj (h1.trans h2.symm)
  have h4 := hc z
  rw [h3] at h4
  have h5 : ∑ i, z i * w i = M k k := by
    rw [Finset.sum_eq_single k]
    · rw [hz, hw]
      simp
    · intro b _ hb
      rw [hz, hw, if_neg hb]
      by_cases hbk : b.val < k.val
      · rw [if_neg (by omega : ¬ k.val ≤ b.val), mul_zero]
      · rw [if_neg hbk, sub_zero, zero_mul]
    · simp
  rw [h5] at h4
  have h6 : 1 ≤ ∑ i, z i ^ 2 := by
    refine le_trans ?_ (Finset.single_le_sum (f := fun i => z i ^ 2) (fun i _ => sq_nonneg _) (Finset.mem_univ k))
    simp only [hz]
    simp
  nlinarith

theorem NearElim.isUnit_of {k : ℕ} {A M N A' : Matrix (Fin n) (Fin n) ℝ} (_ : NearElim A k M N A') (hN : IsUnit N) (k' : Fin n) :
    IsUnit (stepMat M k' * N) := (stepMat_isUnit _ _).mul hN

/-- The bound on a row, when no row sum exceeds `ρ`. -/
noncomputable def invDelta (n : ℕ) (ρ : ℝ) : ℝ := 1 / 1000000 * ((1 + ρ) * (1 + 1 / 1000000) ^ n)

theorem NearElim.delta {k : ℕ} {A M N A' : Matrix (Fin n) (Fin n) ℝ} {ρ : ℝ} (h : NearElim A k M N A') (hk : k ≤ n)
    (hρ : ∀ i, ∑ j, |A i j| ≤ ρ) (i j : Fin n) : |A' i j - A i j| ≤ invDelta n ρ := by
  refine (h.near i j).trans ?_
  have h0 : 0 ≤ ∑ j, |A i j| := Finset.sum_nonneg fun _ _ => abs_nonneg _
  have hpow : (1 + 1 / 1000000 : ℝ) ^ k ≤ (1 + 1 / 1000000) ^ n := pow_le_pow_right₀ (by norm_num) hk
  unfold invDelta
  refine mul_le_mul_of_nonneg_left ?_ (by norm_num)
  exact mul_le_mul (by linarith [hρ i]) hpow (by positivity) (by linarith [hρ i])

theorem pivotsOK_of_coercive {A : Matrix (Fin n) (Fin n) ℝ} {μ ρ : ℝ} (hc : Coercive μ A) (hρ : ∀ i, ∑ j, |A i j| ≤ ρ)
    (hμ : 1 / 1000000 + n * invDelta n ρ ≤ μ) : PivotsOK A := by
  have key : ∀ k M, Reach A k M → k ≤ n → ∃ N A', IsUnit N ∧ NearElim A k M N A' := by
    intro k M h
    induction h with
    | start => exact fun _ => ⟨1, A, isUnit_one, NearElim.start A⟩
    | step k M Q h1 hQ ih =>
      intro hk
      obtain ⟨N, A', hN, h2⟩ := ih k.2.le
      have hp : 1 / 1000000 ≤ |M k k| := by
        refine le_trans ?_ ((h2.pivot hN ?_ (hc.near (h2.delta k.2.le hρ))).trans (le_abs_self _)) <;> linarith
      have hQ1 : Q = 1 := by
        rcases hQ with ⟨_, rfl⟩ | ⟨hlt, rfl, _⟩ | ⟨hlt, _⟩
        · rfl
        · rfl
        · exact absurd hlt (not_lt.2 hp)
      subst hQ1
      obtain ⟨A'', h3⟩ := h2.step hp
      rw [one_mul]
      exact ⟨_, A'', h2.isUnit_of hN k, h3⟩
  intro k M h
  obtain ⟨N, A', hN, h2⟩ := key k M h k.2.le
  refine le_trans ?_ ((h2.pivot hN ?_ (hc.near (h2.delta k.2.le hρ))).trans (le_abs_self _)) <;> linarith

theorem Coercive.det_ne {A : Matrix (Fin n) (Fin n) ℝ} {μ : ℝ} (hc : Coercive μ A) (hμ : 0 < μ) : A.det ≠ 0 := by
  intro h0
  obtain ⟨v, hv, hv0⟩ := Matrix.exists_mulVec_eq_zero_iff.2 h0
  have h1 := hc v
  rw [hv0] at h1
  simp only [Pi.zero_apply, mul_zero, Finset.sum_const_zero] at h1
  have h2 : 0 < ∑ i, v i ^ 2 := by
    obtain ⟨i, hi⟩ := Function.ne_iff.1 hv
    exact Finset.sum_pos' (fun i _ => sq_nonneg _) ⟨i, Finset.mem_univ _, by positivity [show v i ≠ 0 from hi]⟩
  nlinarith

/-- C26. For every matrix `A` with `x · A x ≥ μ x · x` for all `x` (a symmetric matrix with no eigenvalue below `μ`), where `μ` exceeds 1e-6
by the stated amount, `zsl_mtx_inv` stores a matrix `C` that is the exact inverse of a matrix close to `A`, and `C A` is close to the identity.
Nothing is assumed about the course of the elimination. -/
theorem mtx_inv_coercive (junk : ℕ → XR) (A B : Matrix (Fin n) (Fin n) ℝ) (t u : List XR) (hn : 0 < n) (μ ρ : ℝ) (hc : Coercive μ A)
    (hρ : ∀ i, ∑ j, |A i j| ≤ ρ) (hμ : 1 / 1000000 + n * invDelta n ρ ≤ μ) :
    ∃ C A' : Matrix (Fin n) (Fin n) ℝ, mtxInv junk (mat A t) (mat B u) = ok (0, mat C u) ∧ C * A' = 1 ∧ A' * C = 1 ∧
      (∀ i j, |A' i j - A i j| ≤ invDelta n ρ) ∧
      ∀ i j, |(C * A - 1) i j| ≤ √n * invDelta n ρ / (μ - n * invDelta n ρ) := by
  have hρ0 : 0 ≤ ρ := le_trans (Finset.sum_nonneg fun _ _ => abs_nonneg _) (hρ ⟨0, hn⟩)
  have hδ : 0 ≤ invDelta n ρ := by unfold invDelta; positivity
  have hμ0 : 0 < μ := by
    have : 0 ≤ n * invDelta n ρ := by positivity
    linarith
  obtain ⟨C, A', h1, h2, h3, h4⟩ := mtx_inv_backward junk A B t u hn (hc.det_ne hμ0) (pivotsOK_of_coercive hc hρ hμ)
  have h5 : ∀ i j, |A' i j - A i j| ≤ invDelta n ρ := by
    intro i j
    refine (h4 i j).trans ?_
    unfold invTol invDelta
    refine mul_le_mul_of_nonneg_left ?_ (by norm_num)
    exact mul_le_mul_of_nonneg_right (by linarith [hρ i]) (by positivity)
  refine ⟨C, A', h1, h2, h3, h5, fun i j => ?_⟩
  have hc' := hc.near h5
  have hμ' : 0 < μ - n * invDelta n ρ := by linarith
  obtain ⟨w, hw⟩ : ∃ w : Fin n → ℝ, w = fun i => (C * A - 1) i j := ⟨_, rfl⟩
  obtain ⟨c, hcc⟩ : ∃ c : Fin n → ℝ, c = fun i => A i j - A' i j := ⟨_, rfl⟩
  have h6 : A' *ᵥ w = c := by
    have h7 : A' * (C * A - 1) = A - A' := by
      rw [Matrix.mul_sub, ← Matrix.mul_assoc, h3, Matrix.one_mul, Matrix.mul_one]
    rw [hw, hcc]
    funext p
    have := congrFun (congrFun h7 p) j
    rw [Matrix.mul_apply] at this
    exact this
  have h7 := hc' w
  rw [h6] at h7
  have hcs : (∑ i, w i * c i) ^ 2 ≤ (∑ i, w i ^ 2) * ∑ i, c i ^ 2 := Finset.sum_mul_sq_le_sq_mul_sq _ _ _
  have hcn : ∑ i, c i ^ 2 ≤ n * invDelta n ρ ^ 2 := by
    calc ∑ i, c i ^ 2 ≤ ∑ _i : Fin n, invDelta n ρ ^ 2 := by
          refine Finset.sum_le_sum fun i _ => ?_
          rw [hcc]
          refine sq_le_sq' ?_ ?_
          · have := (abs_le.1 (h5 i j)).2
            simp only
            linarith
          · have := (abs_le.1 (h5 i j)).1
            simp only
            linarith
      _ = _ := by simp
  have hS : 0 ≤ ∑ i, w i ^ 2 := Finset.sum_nonneg fun _ _ => sq_nonneg _
  have hwS : w i ^ 2 ≤ ∑ i, w i ^ 2 := Finset.single_le_sum (f := fun i => w i ^ 2) (fun i _ => sq_nonneg _) (Finset.mem_univ i)
  have hfin : (μ - n * invDelta n ρ) ^ 2 * ∑ i, w i ^ 2 ≤ n * invDelta n ρ ^ 2 := by
    rcases hS.eq_or_lt with h0 | h0
    · rw [← h0, mul_zero]
      positivity
    · have h8 : ((μ - n * invDelta n ρ) * ∑ i, w i ^ 2) ^ 2 ≤ (∑ i, w i ^ 2) * (n * invDelta n ρ ^ 2) :=
        (pow_le_pow_left₀ (by positivity) h7 2).trans (hcs.trans (mul_le_mul_of_nonneg_left hcn hS))
      refine le_of_mul_le_mul_left ?_ h0
      calc (∑ i, w i ^ 2) * ((μ - n * invDelta n ρ) ^ 2 * ∑ i, w i ^ 2) = ((μ - n * invDelta n ρ) * ∑ i, w i ^ 2) ^ 2 := by ring
        _ ≤ _ := h8
  have hwi : (C * A - 1) i j = w i := by rw [hw]
  rw [hwi, le_div_iff₀ hμ']
  refine le_of_sq_le_sq ?_ (by positivity)
  rw [mul_pow, mul_pow, Real.sq_sqrt (Nat.cast_nonneg n), sq_abs]
  nlinarith [mul_le_mul_of_nonneg_left hwS (sq_nonneg (μ - n * invDelta n ρ))]

end Verif
