import Mathlib.LinearAlgebra.CrossProduct
import Verif.Props.Round1
import Verif.Props.Round9

/-!
# Vectors and matrices of integers (C160)

Arithmetic rounded to nearest with `p + 1` binary digits (53 for `double`, 24 for `float`).
-/

set_option linter.unusedSectionVars false

namespace Verif

open Out
open scoped Matrix

variable {n r c q : ℕ} {p : ℕ} {lib : Libm}

/-- A vector of integers. -/
noncomputable def vecZ (p : ℕ) (lib : Libm) (x : Fin n → ℤ) (t : List (FX (nearestRounding p lib))) : Vec (FX (nearestRounding p lib)) :=
  vecF _ (fun i => (x i : ℝ)) t

/-- A matrix of integers. -/
noncomputable def matZ (p : ℕ) (lib : Libm) (A : Matrix (Fin r) (Fin c) ℤ) (t : List (FX (nearestRounding p lib))) : Mtx (FX (nearestRounding p lib)) :=
  matF _ (A.map (Int.cast : ℤ → ℝ)) t

/-- An integer, as a number of the arithmetic. -/
noncomputable def numZ (p : ℕ) (lib : Libm) (m : ℤ) : FX (nearestRounding p lib) := FX.of _ (m : ℝ)

theorem rnd_int (p : ℕ) (lib : Libm) {m : ℤ} (h : |m| < 2 ^ (p + 1)) : (nearestRounding p lib).rnd (m : ℝ) = m := by
  refine nearest_exactTo p lib m ?_
  have : ((|m| : ℤ) : ℝ) ≤ ((2 ^ (p + 1) - 1 : ℤ) : ℝ) := by exact_mod_cast (by omega : |m| ≤ 2 ^ (p + 1) - 1)
  push_cast at this
  exact this

theorem numZ_mul {a b : ℤ} (h : |a * b| < 2 ^ (p + 1)) : numZ p lib a * numZ p lib b = numZ p lib (a * b) := by
  unfold numZ
  rw [FX.of_mul, ← rnd_int p lib h]
  push_cast
  rfl

theorem numZ_sub {a b : ℤ} (h : |a - b| < 2 ^ (p + 1)) : numZ p lib a - numZ p lib b = numZ p lib (a - b) := by
  unfold numZ
  rw [FX.of_sub, ← rnd_int p lib h]
  push_cast
  rfl

theorem numZ_add {a b : ℤ} (h : |a + b| < 2 ^ (p + 1)) : numZ p lib a + numZ p lib b = numZ p lib (a + b) := by
  unfold numZ
  rw [FX.of_add, ← rnd_int p lib h]
  push_cast
  rfl

theorem numZ_cross {a b a' b' : ℤ} (h : |a| * |b| + |a'| * |b'| < 2 ^ (p + 1)) :
    numZ p lib a * numZ p lib b - numZ p lib a' * numZ p lib b' = numZ p lib (a * b - a' * b') := by
  have h1 : 0 ≤ |a| * |b| := by positivity
  have h2 : 0 ≤ |a'| * |b'| := by positivity
  rw [numZ_mul (by rw [abs_mul]; omega), numZ_mul (by rw [abs_mul]; omega), numZ_sub]
  refine (abs_sub _ _).trans_lt ?_
  rw [abs_mul, abs_mul]
  exact h

theorem accSum_int (f : ℕ → ℤ) : ∀ n : ℕ, ∑ k ∈ Finset.range n, |f k| < 2 ^ (p + 1) →
    accSum (fun k => numZ p lib (f k)) n = numZ p lib (∑ k ∈ Finset.range n, f k) := by
  intro n
  induction n with
  | zero =>
    intro _
    have := (nearestRounding p lib).rnd_zero
    simp [accSum, numZ, this]
  | succ n ih =>
    intro h
    rw [accSum, ih (by rw [Finset.sum_range_succ] at h; linarith [abs_nonneg (f n)]), numZ_add, Finset.sum_range_succ]
    rw [← Finset.sum_range_succ]
    exact (Finset.abs_sum_le_sum_abs _ _).trans_lt h

/-- C160. `zsl_vec_add`, `zsl_vec_sub`, `zsl_vec_scalar_add` and `zsl_vec_scalar_mult` are exact on integers whose results have at most `p + 1`
digits. -/
theorem vec_elementwise_integers (x y : Fin n → ℤ) (a : ℤ) (z : Fin n → FX (nearestRounding p lib)) (t s w : List (FX (nearestRounding p lib))) :
    ((∀ i, |x i + y i| < 2 ^ (p + 1)) → vecAdd (vecZ p lib x t) (vecZ p lib y s) (vecOf z w) = ok (0, vecZ p lib (fun i => x i + y i) w)) ∧
    ((∀ i, |x i - y i| < 2 ^ (p + 1)) → vecSub (vecZ p lib x t) (vecZ p lib y s) (vecOf z w) = ok (0, vecZ p lib (fun i => x i - y i) w)) ∧
    ((∀ i, |x i + a| < 2 ^ (p + 1)) → vecScalarAdd (vecZ p lib x t) (numZ p lib a) = ok (0, vecZ p lib (fun i => x i + a) t)) ∧
    ((∀ i, |x i * a| < 2 ^ (p + 1)) → vecScalarMult (vecZ p lib x t) (numZ p lib a) = ok (0, vecZ p lib (fun i => x i * a) t)) := by
  obtain ⟨h1, h2, h3, h4⟩ := vec_elementwise_rounding (nearestRounding p lib) (fun i => (x i : ℝ)) (fun i => (y i : ℝ)) (a : ℝ) z t s w
  refine ⟨fun h => h1.trans ?_, fun h => h2.trans ?_, fun h => h3.trans ?_, fun h => h4.trans ?_⟩ <;>
  · unfold vecZ
    congr 3
    funext i
    rw [← rnd_int p lib (h i)]
    push_cast
    rfl

/-- C160. The dot product of vectors of integers is exact if the sum of the absolute values of the products has at most `p + 1` digits. -/
theorem vec_dot_integers (x y : Fin n → ℤ) (t s : List (FX (nearestRounding p lib))) (d : FX (nearestRounding p lib))
    (h : ∑ i, |x i * y i| < 2 ^ (p + 1)) : vecDot (vecZ p lib x t) (vecZ p lib y s) d = ok (0, numZ p lib (∑ i, x i * y i)) := by
  set f : ℕ → ℤ := fun k => if h : k < n then x ⟨k, h⟩ * y ⟨k, h⟩ else 0 with hf
  have hfin : ∀ i : Fin n, f i = x i * y i := fun i => by simp [hf]
  have hsum : ∑ k ∈ Finset.range n, |f k| < 2 ^ (p + 1) := by
    rw [Finset.sum_range]
    simpa only [hfin] using h
  unfold vecDot
  rw [if_neg (by simp [vecZ, vecF])]
  rw [show (vecZ p lib x t).sz = n from rfl, forN_accSum (fun k => numZ p lib (f k)), accSum_int f n hsum, Finset.sum_range]
  · simp only [hfin]
    rfl
  · intro i hi a
    have h1 := vecOf_rd (fun i => FX.of (nearestRounding p lib) (x i : ℝ)) t ⟨i, hi⟩
    have h2 := vecOf_rd (fun i => FX.of (nearestRounding p lib) (y i : ℝ)) s ⟨i, hi⟩
    simp only at h1 h2
    unfold vecZ vecF
    rw [h1, ok_bind, h2, ok_bind]
    have hb : |x ⟨i, hi⟩ * y ⟨i, hi⟩| < 2 ^ (p + 1) :=
      (Finset.single_le_sum (f := fun i => |x i * y i|) (fun i _ => abs_nonneg _) (Finset.mem_univ ⟨i, hi⟩)).trans_lt h
    have hm := numZ_mul (lib := lib) hb
    unfold numZ at hm
    rw [hm]
    simp [hf, hi, numZ]

/-- C160. The sum of squares of integers is exact if it has at most `p + 1` digits. -/
theorem vec_sum_of_sqrs_integers (x : Fin n → ℤ) (t : List (FX (nearestRounding p lib))) (h : ∑ i, x i ^ 2 < 2 ^ (p + 1)) :
    vecSumOfSqrs (vecZ p lib x t) = ok (numZ p lib (∑ i, x i ^ 2)) := by
  have h1 := vec_dot_integers x x t t (lit 0) (lib := lib) (p := p) (by
    refine lt_of_le_of_lt (le_of_eq (Finset.sum_congr rfl fun i _ => ?_)) h
    rw [← pow_two, abs_of_nonneg (sq_nonneg _)])
  rw [vecSumOfSqrs, h1]
  simp only [pow_two]
  rfl

/-- C160. The cross product of vectors of integers is exact if every pair of products that it subtracts has at most `p + 1` digits in total. -/
theorem vec_cross_integers (x y : Fin 3 → ℤ) (z : Fin 3 → FX (nearestRounding p lib)) (t s w : List (FX (nearestRounding p lib)))
    (h : ∀ i j, i ≠ j → |x i| * |y j| + |x j| * |y i| < 2 ^ (p + 1)) :
    vecCross (vecZ p lib x t) (vecZ p lib y s) (vecOf z w) = ok (0, vecZ p lib (x ⨯₃ y) w) := by
  have hx : vecZ p lib x t = ⟨3, [numZ p lib (x 0), numZ p lib (x 1), numZ p lib (x 2)] ++ t⟩ := rfl
  have hy : vecZ p lib y s = ⟨3, [numZ p lib (y 0), numZ p lib (y 1), numZ p lib (y 2)] ++ s⟩ := rfl
  have hz : vecOf z w = ⟨3, [z 0, z 1, z 2] ++ w⟩ := rfl
  have hc : vecZ p lib (x ⨯₃ y) w = ⟨3, [numZ p lib ((x ⨯₃ y) 0), numZ p lib ((x ⨯₃ y) 1), numZ p lib ((x ⨯₃ y) 2)] ++ w⟩ := rfl
  rw [hx, hy, hz, hc, cross_apply]
  unfold vecCross
  rw [if_neg (by simp)]
  simp only [rd, wr, List.cons_append, List.nil_append, List.length_cons, List.getElem?_cons_zero, List.getElem?_cons_succ, List.set_cons_zero,
    List.set_cons_succ, Nat.zero_lt_succ, Nat.succ_lt_succ_iff, if_true, ok_bind, pure_eq]
  rw [numZ_cross (h 1 2 (by decide)), numZ_cross (h 2 0 (by decide)), numZ_cross (h 0 1 (by decide))]
  rfl

/-- C160. Sums, differences and multiples of matrices of integers are exact if the results have at most `p + 1` digits. -/
theorem mtx_elementwise_integers (A B : Matrix (Fin r) (Fin c) ℤ) (C : Matrix (Fin r) (Fin c) (FX (nearestRounding p lib))) (a : ℤ)
    (t u w : List (FX (nearestRounding p lib))) :
    ((∀ i j, |A i j + B i j| < 2 ^ (p + 1)) → mtxAdd (matZ p lib A t) (matZ p lib B u) (mtxOf C w) = ok (0, matZ p lib (A + B) w)) ∧
    ((∀ i j, |A i j - B i j| < 2 ^ (p + 1)) → mtxSub (matZ p lib A t) (matZ p lib B u) (mtxOf C w) = ok (0, matZ p lib (A - B) w)) ∧
    ((∀ i j, |A i j * a| < 2 ^ (p + 1)) → mtxScalarMultD (matZ p lib A t) (numZ p lib a) = ok (0, matZ p lib (a • A) t)) := by
  refine ⟨fun h => mtxBinaryOp_eq _ _ _ _ _ _ _ _ fun i j => ?_, fun h => mtxBinaryOp_eq _ _ _ _ _ _ _ _ fun i j => ?_, fun h => ?_⟩
  · have := numZ_add (lib := lib) (h i j)
    unfold numZ at this
    simp only [binaryStep, Matrix.map_apply, Matrix.add_apply]
    rw [this]
  · have := numZ_sub (lib := lib) (h i j)
    unfold numZ at this
    simp only [binaryStep, Matrix.map_apply, Matrix.sub_apply]
    rw [this]
  · refine (mtxScalarMultD_F (nearestRounding p lib) (A.map (Int.cast : ℤ → ℝ)) t (a : ℝ)).trans ?_
    unfold matZ
    congr 3
    ext i j
    simp only [Matrix.of_apply, Matrix.map_apply, Matrix.smul_apply, smul_eq_mul]
    have := rnd_int p lib (h i j)
    push_cast at this ⊢
    rw [this, mul_comm]

/-- C160. The product of matrices of integers is exact if the sums of the absolute values of the products have at most `p + 1` digits. -/
theorem mtx_mult_integers (A : Matrix (Fin r) (Fin n) ℤ) (B : Matrix (Fin n) (Fin q) ℤ) (C : Matrix (Fin r) (Fin q) (FX (nearestRounding p lib)))
    (t u w : List (FX (nearestRounding p lib))) (h : ∀ i j, ∑ k, |A i k * B k j| < 2 ^ (p + 1)) :
    mtxMult (matZ p lib A t) (matZ p lib B u) (mtxOf C w) = ok (0, matZ p lib (A * B) w) := by
  unfold matZ matF
  rw [mtxMult_gen]
  congr 3
  ext i j
  set f : ℕ → ℤ := fun k => if h : k < n then A i ⟨k, h⟩ * B ⟨k, h⟩ j else 0 with hf
  have hfin : ∀ k : Fin n, f k = A i k * B k j := fun i => by simp [hf]
  have hsum : ∑ k ∈ Finset.range n, |f k| < 2 ^ (p + 1) := by
    rw [Finset.sum_range]
    simpa only [hfin] using h i j
  have e := accSum_int (lib := lib) f n hsum
  rw [Finset.sum_range] at e
  simp only [hfin] at e
  simp only [Matrix.of_apply, Matrix.map_apply, Matrix.mul_apply]
  refine Eq.trans (accSum_congr fun k hk => ?_) e
  rw [ext_lt _ i.isLt hk, ext_lt _ hk j.isLt]
  have hb : |A i ⟨k, hk⟩ * B ⟨k, hk⟩ j| < 2 ^ (p + 1) :=
    (Finset.single_le_sum (f := fun k => |A i k * B k j|) (fun i _ => abs_nonneg _) (Finset.mem_univ ⟨k, hk⟩)).trans_lt (h i j)
  have hm := numZ_mul (lib := lib) hb
  unfold numZ at hm
  simp only [Matrix.map_apply, Fin.eta]
  rw [hm]
  simp [hf, hk, numZ]

/-- C160. The 3x3 adjoint of a matrix of integers is exact if every cofactor has at most `p + 1` digits, counting absolute values. -/
theorem mtx_adjoint_3x3_integers (A : Matrix (Fin 3) (Fin 3) ℤ) (B : Matrix (Fin 3) (Fin 3) (FX (nearestRounding p lib)))
    (t u : List (FX (nearestRounding p lib))) (h : ∀ i j k l, i ≠ j → k ≠ l → |A i k| * |A j l| + |A i l| * |A j k| < 2 ^ (p + 1)) :
    mtxAdjoint3x3 (matZ p lib A t) (mtxOf B u) = ok (0, matZ p lib A.adjugate u) := by
  unfold matZ
  rw [mtxAdjoint3x3_F]
  congr 3
  have q : ∀ a b c d : ℤ, |a| * |b| + |c| * |d| < 2 ^ (p + 1) →
      (nearestRounding p lib).rnd ((nearestRounding p lib).rnd ((a : ℝ) * b) - (nearestRounding p lib).rnd ((c : ℝ) * d)) = ((a * b - c * d : ℤ) : ℝ) := by
    intro a b c d hh
    have := numZ_cross (lib := lib) hh
    unfold numZ at this
    simpa using this
  have h' : ∀ i j k l, i ≠ j → k ≠ l → |A i l| * |A j k| + |A i k| * |A j l| < 2 ^ (p + 1) := fun i j k l h1 h2 => by
    rw [add_comm]
    exact h i j k l h1 h2
  ext i j
  rw [Matrix.adjugate_fin_three]
  have q' : ∀ a b c d : ℤ, |a| * |b| + |d| * |c| < 2 ^ (p + 1) →
      (nearestRounding p lib).rnd ((nearestRounding p lib).rnd ((a : ℝ) * b) - (nearestRounding p lib).rnd ((c : ℝ) * d)) = ((a * b - c * d : ℤ) : ℝ) := by
    intro a b c d hh
    exact q a b c d (by rw [mul_comm |c|]; exact hh)
  fin_cases i <;> fin_cases j
  · exact (q' (A 1 1) (A 2 2) (A 2 1) (A 1 2) (h 1 2 1 2 (by decide) (by decide))).trans (by congr 1; simp; try ring)
  · exact (q' (A 2 1) (A 0 2) (A 0 1) (A 2 2) (h 2 0 1 2 (by decide) (by decide))).trans (by congr 1; simp; try ring)
  · exact (q' (A 0 1) (A 1 2) (A 1 1) (A 0 2) (h 0 1 1 2 (by decide) (by decide))).trans (by congr 1; simp; try ring)
  · exact (q' (A 2 0) (A 1 2) (A 1 0) (A 2 2) (h 2 1 0 2 (by decide) (by decide))).trans (by congr 1; simp; try ring)
  · exact (q' (A 0 0) (A 2 2) (A 2 0) (A 0 2) (h 0 2 0 2 (by decide) (by decide))).trans (by congr 1; simp; try ring)
  · exact (q' (A 1 0) (A 0 2) (A 0 0) (A 1 2) (h 1 0 0 2 (by decide) (by decide))).trans (by congr 1; simp; try ring)
  · exact (q' (A 1 0) (A 2 1) (A 2 0) (A 1 1) (h 1 2 0 1 (by decide) (by decide))).trans (by congr 1; simp; try ring)
  · exact (q' (A 2 0) (A 0 1) (A 0 0) (A 2 1) (h 2 0 0 1 (by decide) (by decide))).trans (by congr 1; simp; try ring)
  · exact (q' (A 0 0) (A 1 1) (A 1 0) (A 0 1) (h 0 1 0 1 (by decide) (by decide))).trans (by congr 1; simp; try ring)

/-- C160. The 3x3 inverse of a matrix of integers with determinant 1 or -1 is exact. -/
theorem mtx_inv_3x3_integers (x0 : FX (nearestRounding p lib)) (A : Matrix (Fin 3) (Fin 3) ℤ) (B : Matrix (Fin 3) (Fin 3) (FX (nearestRounding p lib)))
    (t u : List (FX (nearestRounding p lib))) (hd : |A.det| = 1) (hN : (A.map abs).permanent < 2 ^ (p + 1))
    (h : ∀ i j k l, i ≠ j → k ≠ l → |A i k| * |A j l| + |A i l| * |A j k| < 2 ^ (p + 1)) :
    mtxInv3x3 x0 (matZ p lib A t) (mtxOf B u) = ok (0, matZ p lib A⁻¹ u) ∧ A * A⁻¹ = 1 := by
  have hunit : IsUnit A.det := by
    rcases (abs_eq (by norm_num)).1 hd with h | h <;> rw [h] <;> decide
  refine ⟨?_, Matrix.mul_nonsing_inv A hunit⟩
  have hdet : fdet3 (nearestRounding p lib) (A.map (Int.cast : ℤ → ℝ)) = (A.det : ℝ) := by
    have h1 := mtx_deter_integers p lib (fun _ => lit 0) A t x0 hN
    rw [mtxDeter_F] at h1
    rw [ok.injEq, Prod.mk.injEq, FX.of_inj] at h1
    exact h1.2
  have hadj := mtx_adjoint_3x3_integers A B t u h
  unfold matZ at hadj ⊢
  rw [mtxAdjoint3x3_F] at hadj
  simp only [ok.injEq, Prod.mk.injEq, true_and] at hadj
  have hadj' : ∀ i j, fadj3 (nearestRounding p lib) (A.map (Int.cast : ℤ → ℝ)) i j = (A.adjugate i j : ℝ) := by
    intro i j
    have := congrFun (congrFun (mtxOf_inj hadj).1 i) j
    simpa using this
  rw [mtxInv3x3_F _ _ _ _ _ _ (by
    rw [hdet]
    intro h0
    have : A.det = 0 := by exact_mod_cast h0
    rw [this] at hd
    simp at hd)]
  congr 3
  ext i j
  rw [Matrix.of_apply, hdet, hadj', Matrix.map_apply, Matrix.inv_def, Matrix.smul_apply, smul_eq_mul]
  have hb : |A.adjugate i j| < 2 ^ (p + 1) := by
    have hz : ∀ m : ℤ, |m| < 2 ^ (p + 1) ∨ 2 ^ (p + 1) ≤ |m| := fun m => lt_or_ge _ _
    rw [Matrix.adjugate_fin_succ_eq_det_submatrix, abs_mul, abs_pow, abs_neg, abs_one, one_pow, one_mul, Matrix.det_fin_two]
    refine (abs_sub _ _).trans_lt ?_
    rw [abs_mul, abs_mul]
    simp only [Matrix.submatrix_apply]
    exact h (j.succAbove 0) (j.succAbove 1) (i.succAbove 0) (i.succAbove 1)
      (fun e => absurd (Fin.succAbove_right_injective e) (by decide)) (fun e => absurd (Fin.succAbove_right_injective e) (by decide))
  have r1 := (nearestRounding p lib).one
  have rn1 := (nearestRounding p lib).neg_one
  rcases (abs_eq (by norm_num)).1 hd with h | h
  · rw [h, Int.cast_one, div_one, r1, mul_one, rnd_int p lib hb]
    simp
  · have e : (Ring.inverse (-1 : ℤ)) = -1 := by
      have := Ring.inverse_unit (-1 : ℤˣ)
      simpa using this
    rw [h, e, Int.cast_neg, Int.cast_one, show (1 / (-1) : ℝ) = -1 by norm_num, rn1]
    have := rnd_int p lib (m := -1 * A.adjugate i j) (by rw [abs_mul, abs_neg, abs_one, one_mul]; exact hb)
    push_cast at this ⊢
    rw [mul_comm, this]

/-- Non-vacuity: single precision. -/
example (lib : Libm) (x0 : FX (nearestRounding 23 lib)) (B : Matrix (Fin 3) (Fin 3) (FX (nearestRounding 23 lib))) :
    mtxInv3x3 x0 (matZ 23 lib !![1, 2, 3; 0, 1, 4; 0, 0, -1] []) (mtxOf B []) =
      ok (0, matZ 23 lib (!![1, 2, 3; 0, 1, 4; 0, 0, -1] : Matrix (Fin 3) (Fin 3) ℤ)⁻¹ []) :=
  (mtx_inv_3x3_integers x0 _ B [] [] (by decide +kernel) (by decide +kernel) (by decide +kernel)).1

example (lib : Libm) (d : FX (nearestRounding 23 lib)) : vecDot (vecZ 23 lib ![4095, -4095, 7] []) (vecZ 23 lib ![2000, 2000, 3] []) d = ok (0, numZ 23 lib 21) := by
  have h := vec_dot_integers (p := 23) (lib := lib) ![4095, -4095, 7] ![2000, 2000, 3] [] [] d (by decide +kernel)
  simpa [Fin.sum_univ_three] using h

end Verif
