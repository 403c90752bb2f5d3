import Verif.Lemmas.DetRound
import Verif.Props.Round8

/-!
# Determinant, adjoint and 3x3 inverse in floating point (C159)

The size that errors are measured against is the permanent of the absolute values (the sum of the absolute values of the products that make
up the determinant).
-/

set_option linter.unusedSectionVars false

namespace Verif

open Out

variable {n : ℕ}

/-- C159. `zsl_mtx_deter` of a square matrix of any size stores a number that differs from the determinant by at most the error of
`(n + 1) (n + 4) / 2` roundings, for `n + 1` rows, relative to the sum of the absolute values of the products in the determinant. -/
theorem mtx_deter_rounding (F : Rounding) (junk : ℕ → FX F) (A : Matrix (Fin (n + 1)) (Fin (n + 1)) ℝ) (t : List (FX F)) (x : FX F) :
    ∃ d : ℝ, mtxDeter junk (matF F A t) x = ok (0, FX.of F d) ∧
      |d - A.det| ≤ gam F.u ((n + 1) * (n + 4) / 2) * (A.map abs).permanent :=
  ⟨_, mtxDeter_F junk A t x, (fdet_err F n A).2⟩

/-- C159. For three rows, five roundings; `zsl_mtx_deter_3x3` and `zsl_mtx_deter` store the same number. -/
theorem mtx_deter_3x3_rounding (F : Rounding) (junk : ℕ → FX F) (A : Matrix (Fin 3) (Fin 3) ℝ) (t : List (FX F)) (x : FX F) :
    ∃ d : ℝ, mtxDeter3x3 (matF F A t) x = ok (0, FX.of F d) ∧ mtxDeter junk (matF F A t) x = ok (0, FX.of F d) ∧
      |d - A.det| ≤ gam F.u 5 * (A.map abs).permanent :=
  ⟨_, mtxDeter3x3_F A t x, mtxDeter_F junk A t x, (fdet3_err F A).2⟩

/-- C159. A determinant that is larger than its error bound gets the right sign, and is not mistaken for zero. -/
theorem mtx_deter_sign (F : Rounding) (junk : ℕ → FX F) (A : Matrix (Fin (n + 1)) (Fin (n + 1)) ℝ) (t : List (FX F)) (x : FX F)
    (h : gam F.u ((n + 1) * (n + 4) / 2) * (A.map abs).permanent < |A.det|) :
    ∃ d : ℝ, mtxDeter junk (matF F A t) x = ok (0, FX.of F d) ∧ d ≠ 0 ∧ (0 < d ↔ 0 < A.det) := by
  obtain ⟨d, h1, h2⟩ := mtx_deter_rounding F junk A t x
  have h3 := h2.trans_lt h
  obtain ⟨h4, h5⟩ := abs_lt.1 h3
  refine ⟨d, h1, ?_, ?_⟩
  · rintro rfl
    rw [zero_sub, abs_neg] at h3
    exact lt_irrefl _ h3
  · rcases abs_cases A.det with ⟨e, h6⟩ | ⟨e, h6⟩
    · rw [e] at h4 h5
      exact ⟨fun _ => by linarith, fun _ => by linarith⟩
    · rw [e] at h4 h5
      exact ⟨fun _ => by linarith, fun _ => by linarith⟩

/-- Non-vacuity: a matrix of four rows whose determinant passes the test in double precision. -/
example (lib : Libm) : gam (nearestRounding 52 lib).u ((3 + 1) * (3 + 4) / 2) *
    ((1 : Matrix (Fin (3 + 1)) (Fin (3 + 1)) ℝ).map abs).permanent < |(1 : Matrix (Fin (3 + 1)) (Fin (3 + 1)) ℝ).det| := by
  have e : (1 : Matrix (Fin (3 + 1)) (Fin (3 + 1)) ℝ).map abs = 1 := by
    ext i j
    by_cases h : i = j <;> simp [Matrix.one_apply, h]
  rw [e, Matrix.permanent_one, Matrix.det_one, abs_one, mul_one]
  have hu : (nearestRounding 52 lib).u = 2⁻¹ / 2 ^ 52 := by
    simp [nearestRounding]
    try norm_num
  rw [hu]
  unfold gam
  norm_num

/-! ### Matrices of integers -/

section integers

variable {F : Rounding} {N : ℝ}

/-- Integers up to `N` are not rounded. -/
def ExactTo (F : Rounding) (N : ℝ) : Prop := ∀ m : ℤ, |(m : ℝ)| ≤ N → F.rnd m = m

theorem ExactTo.rnd (h : ExactTo F N) {x : ℝ} (m : ℤ) (hx : x = m) (hN : |x| ≤ N) : F.rnd x = x := by
  subst hx
  exact h m hN

theorem minor_int (h : ExactTo F N) (a b c d : ℤ) (hN : |(a : ℝ)| * |(b : ℝ)| + |(c : ℝ)| * |(d : ℝ)| ≤ N) :
    F.rnd (F.rnd ((a : ℝ) * b) - F.rnd ((c : ℝ) * d)) = a * b - c * d := by
  have h1 : 0 ≤ |(a : ℝ)| * |(b : ℝ)| := by positivity
  have h2 : 0 ≤ |(c : ℝ)| * |(d : ℝ)| := by positivity
  rw [h.rnd (x := (a : ℝ) * b) (a * b) (by push_cast; rfl) (by rw [abs_mul]; linarith),
    h.rnd (x := (c : ℝ) * d) (c * d) (by push_cast; rfl) (by rw [abs_mul]; linarith),
    h.rnd (x := (a : ℝ) * b - c * d) (a * b - c * d) (by push_cast; rfl)
      ((abs_sub _ _).trans (by rw [abs_mul, abs_mul]; exact hN))]

/-- A product with a factor that is zero, or makes the other factor small enough to be exact. -/
theorem scaled_int (h : ExactTo F N) (c m : ℤ) {x p : ℝ} (hm : |(m : ℝ)| ≤ p) (hx : p ≤ N → x = m) (hN : |(c : ℝ)| * p ≤ N) :
    F.rnd (c * x) = c * m := by
  by_cases hc : c = 0
  · subst hc
    simp [F.rnd_zero]
  have h1 : (1 : ℝ) ≤ |(c : ℝ)| := by exact_mod_cast Int.one_le_abs hc
  have hp : 0 ≤ p := (abs_nonneg _).trans hm
  rw [hx (by nlinarith)]
  refine h.rnd (c * m) (by push_cast; rfl) ?_
  rw [abs_mul]
  exact (mul_le_mul_of_nonneg_left hm (abs_nonneg _)).trans hN

theorem fdet3_int (h : ExactTo F N) (A : Matrix (Fin 3) (Fin 3) ℤ)
    (hN : ((A.map (Int.cast : ℤ → ℝ)).map abs).permanent ≤ N) : fdet3 F (A.map (Int.cast : ℤ → ℝ)) = (A.det : ℝ) := by
  rw [perm3] at hN
  simp only [Matrix.map_apply] at hN
  have q : ∀ a b c d : ℤ, |((a * b - c * d : ℤ) : ℝ)| ≤ |(a : ℝ)| * |(b : ℝ)| + |(c : ℝ)| * |(d : ℝ)| := by
    intro a b c d
    push_cast
    exact (abs_sub _ _).trans (by rw [abs_mul, abs_mul])
  have p0 : 0 ≤ |(A 0 0 : ℝ)| * (|(A 1 1 : ℝ)| * |(A 2 2 : ℝ)| + |(A 2 1 : ℝ)| * |(A 1 2 : ℝ)|) := by positivity
  have p1 : 0 ≤ |(A 1 0 : ℝ)| * (|(A 0 1 : ℝ)| * |(A 2 2 : ℝ)| + |(A 2 1 : ℝ)| * |(A 0 2 : ℝ)|) := by positivity
  have p2 : 0 ≤ |(A 2 0 : ℝ)| * (|(A 0 1 : ℝ)| * |(A 1 2 : ℝ)| + |(A 1 1 : ℝ)| * |(A 0 2 : ℝ)|) := by positivity
  have b0 := mul_le_mul_of_nonneg_left (q (A 1 1) (A 2 2) (A 2 1) (A 1 2)) (abs_nonneg (A 0 0 : ℝ))
  have b1 := mul_le_mul_of_nonneg_left (q (A 0 1) (A 2 2) (A 2 1) (A 0 2)) (abs_nonneg (A 1 0 : ℝ))
  have b2 := mul_le_mul_of_nonneg_left (q (A 0 1) (A 1 2) (A 1 1) (A 0 2)) (abs_nonneg (A 2 0 : ℝ))
  rw [← abs_mul] at b0 b1 b2
  unfold fdet3
  simp only [Matrix.map_apply]
  rw [scaled_int h (A 0 0) (A 1 1 * A 2 2 - A 2 1 * A 1 2) (q _ _ _ _) (fun hp => by rw [minor_int h _ _ _ _ hp]; push_cast; rfl) (by linarith),
    scaled_int h (A 1 0) (A 0 1 * A 2 2 - A 2 1 * A 0 2) (q _ _ _ _) (fun hp => by rw [minor_int h _ _ _ _ hp]; push_cast; rfl) (by linarith),
    scaled_int h (A 2 0) (A 0 1 * A 1 2 - A 1 1 * A 0 2) (q _ _ _ _) (fun hp => by rw [minor_int h _ _ _ _ hp]; push_cast; rfl) (by linarith)]
  generalize h0 : (A 0 0 : ℝ) * ((A 1 1 * A 2 2 - A 2 1 * A 1 2 : ℤ) : ℝ) = x0 at *
  generalize h1 : (A 1 0 : ℝ) * ((A 0 1 * A 2 2 - A 2 1 * A 0 2 : ℤ) : ℝ) = x1 at *
  generalize h2 : (A 2 0 : ℝ) * ((A 0 1 * A 1 2 - A 1 1 * A 0 2 : ℤ) : ℝ) = x2 at *
  rw [h.rnd (x := x0 - x1) (A 0 0 * (A 1 1 * A 2 2 - A 2 1 * A 1 2) - A 1 0 * (A 0 1 * A 2 2 - A 2 1 * A 0 2))
      (by rw [← h0, ← h1]; push_cast; rfl) ((abs_sub _ _).trans (by linarith)),
    h.rnd (x := x0 - x1 + x2) (A 0 0 * (A 1 1 * A 2 2 - A 2 1 * A 1 2) - A 1 0 * (A 0 1 * A 2 2 - A 2 1 * A 0 2) +
      A 2 0 * (A 0 1 * A 1 2 - A 1 1 * A 0 2)) (by rw [← h0, ← h1, ← h2]; push_cast; rfl)
      ((abs_add_le _ _).trans ((add_le_add_left (abs_sub _ _) _).trans (by linarith)))]
  rw [← h0, ← h1, ← h2, Matrix.det_fin_three]
  push_cast
  ring

theorem fsum_int (h : ExactTo F N) (f : ℕ → ℝ) (y : ℕ → ℤ) (p : ℕ → ℝ) (m : ℕ) (hf : ∀ j < m, f j = y j) (hp : ∀ j < m, |(y j : ℝ)| ≤ p j)
    (hN : ∑ j ∈ Finset.range m, p j ≤ N) : ∀ g ≤ m, fsum F f g = ∑ j ∈ Finset.range g, (y j : ℝ) := by
  intro g
  induction g with
  | zero => simp [fsum]
  | succ g ih =>
    intro hg
    rw [fsum, ih (by omega), hf g (by omega), ← Finset.sum_range_succ (fun j => (y j : ℝ))]
    refine h.rnd (∑ j ∈ Finset.range (g + 1), y j) (by push_cast; rfl) ((Finset.abs_sum_le_sum_abs _ _).trans ?_)
    refine (Finset.sum_le_sum fun j hj => hp j (by rw [Finset.mem_range] at hj; omega)).trans (le_trans ?_ hN)
    refine Finset.sum_le_sum_of_subset_of_nonneg (Finset.range_subset_range.2 hg) fun j hj _ => ?_
    exact (abs_nonneg _).trans (hp j (Finset.mem_range.1 hj))

theorem fdet_int (h : ExactTo F N) (n : ℕ) : ∀ A : Matrix (Fin (n + 1)) (Fin (n + 1)) ℤ,
    ((A.map (Int.cast : ℤ → ℝ)).map abs).permanent ≤ N → fdet F n (A.map (Int.cast : ℤ → ℝ)) = (A.det : ℝ) := by
  induction n with
  | zero =>
    intro A _
    simp [fdet]
  | succ n ih =>
    intro A hN
    rcases n with _ | _ | n
    · rw [perm2] at hN
      simp only [Matrix.map_apply] at hN
      rw [fdet]
      simp only [Matrix.map_apply]
      rw [minor_int h _ _ _ _ hN, Matrix.det_fin_two]
      push_cast
      ring
    · exact fdet3_int h A hN
    · rw [fdet]
      set y : ℕ → ℤ := fun j => if h : j < n + 4 then A 0 ⟨j, h⟩ * (A.submatrix Fin.succ (Fin.succAbove ⟨j, h⟩)).det * (-1) ^ j else 0 with hy
      set p : ℕ → ℝ := fun j => if h : j < n + 4 then
        |(A 0 ⟨j, h⟩ : ℝ)| * (((A.submatrix Fin.succ (Fin.succAbove ⟨j, h⟩)).map (Int.cast : ℤ → ℝ)).map abs).permanent else 0 with hpd
      have hdet : ∀ B : Matrix (Fin (n + 3)) (Fin (n + 3)) ℤ, |((B.det : ℤ) : ℝ)| ≤ ((B.map (Int.cast : ℤ → ℝ)).map abs).permanent := by
        intro B
        have e : ((B.det : ℤ) : ℝ) = (B.map (Int.cast : ℤ → ℝ)).det := by
          have := RingHom.map_det (Int.castRingHom ℝ) B
          exact this
        rw [e]
        exact abs_det_le _
      have hsum : ∑ j ∈ Finset.range (n + 4), p j ≤ N := by
        refine le_trans (le_of_eq ?_) hN
        rw [Finset.sum_range, permanent_succ_row_zero]
        refine Finset.sum_congr rfl fun j _ => ?_
        simp only [hpd, j.2, dif_pos, Fin.eta, Matrix.map_apply, Matrix.submatrix_map]
      have hp0 : ∀ j, 0 ≤ p j := by
        intro j
        simp only [hpd]
        split_ifs
        · exact mul_nonneg (abs_nonneg _) (permanent_abs_nonneg _)
        · exact le_rfl
      have hpN : ∀ j < n + 4, p j ≤ N := fun j hj =>
        (Finset.single_le_sum (f := p) (fun i _ => hp0 i) (Finset.mem_range.2 hj)).trans hsum
      have hyp : ∀ j < n + 4, |(y j : ℝ)| ≤ p j := by
        intro j hj
        simp only [hy, hpd, hj, dif_pos]
        rw [Int.cast_mul, Int.cast_mul, Int.cast_pow, Int.cast_neg, Int.cast_one, abs_mul, abs_mul, abs_pow, abs_neg, abs_one, one_pow, mul_one]
        exact mul_le_mul_of_nonneg_left (hdet _) (abs_nonneg _)
      rw [fsum_int h _ y p (n + 4) ?_ hyp hsum (n + 4) le_rfl]
      · rw [Finset.sum_range, Matrix.det_succ_row_zero]
        push_cast
        refine Finset.sum_congr rfl fun j _ => ?_
        simp only [hy, j.2, dif_pos, Fin.eta]
        push_cast
        ring
      · intro j hj
        rw [dif_pos hj]
        have hb := hpN j hj
        simp only [hpd, hj, dif_pos] at hb
        have e1 := scaled_int h (A 0 ⟨j, hj⟩) (A.submatrix Fin.succ (Fin.succAbove ⟨j, hj⟩)).det (hdet _) (fun hp => ih _ hp) hb
        have e2 : (A.map (Int.cast : ℤ → ℝ)) 0 ⟨j, hj⟩ = (A 0 ⟨j, hj⟩ : ℝ) := rfl
        have e3 : (A.map (Int.cast : ℤ → ℝ)).submatrix Fin.succ (Fin.succAbove ⟨j, hj⟩) =
          (A.submatrix Fin.succ (Fin.succAbove ⟨j, hj⟩)).map (Int.cast : ℤ → ℝ) := rfl
        rw [e2, e3, mul_comm, mul_comm (fdet F (n + 2) _), e1]
        rw [h.rnd (y j) (by simp only [hy, hj, dif_pos]; push_cast; ring) ?_]
        · simp only [hy, hj, dif_pos]
          push_cast
          ring
        · have e4 := (hyp j hj).trans (hpN j hj)
          have e5 : (y j : ℝ) = (-1) ^ j * ((A 0 ⟨j, hj⟩ : ℝ) * ((A.submatrix Fin.succ (Fin.succAbove ⟨j, hj⟩)).det : ℤ)) := by
            simp only [hy, hj, dif_pos]
            rw [Int.cast_mul, Int.cast_mul, Int.cast_pow, Int.cast_neg, Int.cast_one]
            ring
          rwa [e5] at e4

end integers

theorem nearest_exactTo (p : ℕ) (lib : Libm) : ExactTo (nearestRounding p lib) (2 ^ (p + 1) - 1) := by
  intro m hm
  change nearest p m = m
  have h1 : ∀ k : ℕ, (k : ℝ) ≤ 2 ^ (p + 1) - 1 → nearest p k = k := by
    intro k hk
    refine nearest_nat p k ?_
    have : (k : ℝ) < 2 ^ (p + 1) := by linarith
    exact_mod_cast this
  rcases Int.natAbs_eq m with h | h
  · rw [h] at hm ⊢
    rw [Int.cast_natCast] at hm ⊢
    exact h1 _ (by rwa [abs_of_nonneg (Nat.cast_nonneg _)] at hm)
  · rw [h] at hm ⊢
    rw [Int.cast_neg, Int.cast_natCast] at hm ⊢
    rw [nearest_neg, h1 _ (by rwa [abs_neg, abs_of_nonneg (Nat.cast_nonneg _)] at hm)]

/-- C159. For a matrix of integers the stored determinant is exact, as long as the sum of the absolute values of the products stays below
`2 ^ (p + 1)`, where `p + 1` is the precision of the floating point format (53 for `double`, 24 for `float`). Any size. -/
theorem mtx_deter_integers (p : ℕ) (lib : Libm) (junk : ℕ → FX (nearestRounding p lib)) (A : Matrix (Fin (n + 1)) (Fin (n + 1)) ℤ)
    (t : List (FX (nearestRounding p lib))) (x : FX (nearestRounding p lib)) (hN : (A.map abs).permanent < 2 ^ (p + 1)) :
    mtxDeter junk (matF _ (A.map (Int.cast : ℤ → ℝ)) t) x = ok (0, FX.of _ (A.det : ℝ)) := by
  rw [mtxDeter_F, fdet_int (nearest_exactTo p lib) n A]
  have e : ((A.map (Int.cast : ℤ → ℝ)).map abs).permanent = (((A.map abs).permanent : ℤ) : ℝ) := by
    unfold Matrix.permanent
    push_cast
    simp
  rw [e]
  have : (((A.map abs).permanent : ℤ) : ℝ) ≤ ((2 ^ (p + 1) - 1 : ℤ) : ℝ) := by
    exact_mod_cast (by omega : (A.map abs).permanent ≤ 2 ^ (p + 1) - 1)
  refine this.trans (le_of_eq ?_)
  push_cast
  rfl

/-- Non-vacuity: a matrix of four rows. -/
example (lib : Libm) (junk : ℕ → FX (nearestRounding 52 lib)) (x : FX (nearestRounding 52 lib)) :
    mtxDeter junk (matF _ ((!![2, 1, 0, 7; 5, 3, 0, 0; 1, 1, 1, 0; 7, 8, 9, 4] : Matrix (Fin 4) (Fin 4) ℤ).map (Int.cast : ℤ → ℝ)) []) x =
      ok (0, FX.of _ (((!![2, 1, 0, 7; 5, 3, 0, 0; 1, 1, 1, 0; 7, 8, 9, 4] : Matrix (Fin 4) (Fin 4) ℤ).det : ℤ) : ℝ)) :=
  mtx_deter_integers 52 lib junk _ [] x (by decide +kernel)

/-! ### The adjoint -/

/-- The 3x3 adjoint as computed. -/
noncomputable def fadj3 (F : Rounding) (A : Matrix (Fin 3) (Fin 3) ℝ) : Matrix (Fin 3) (Fin 3) ℝ :=
  !![F.rnd (F.rnd (A 1 1 * A 2 2) - F.rnd (A 2 1 * A 1 2)), F.rnd (F.rnd (A 2 1 * A 0 2) - F.rnd (A 0 1 * A 2 2)),
      F.rnd (F.rnd (A 0 1 * A 1 2) - F.rnd (A 1 1 * A 0 2));
    F.rnd (F.rnd (A 2 0 * A 1 2) - F.rnd (A 1 0 * A 2 2)), F.rnd (F.rnd (A 0 0 * A 2 2) - F.rnd (A 2 0 * A 0 2)),
      F.rnd (F.rnd (A 1 0 * A 0 2) - F.rnd (A 0 0 * A 1 2));
    F.rnd (F.rnd (A 1 0 * A 2 1) - F.rnd (A 2 0 * A 1 1)), F.rnd (F.rnd (A 2 0 * A 0 1) - F.rnd (A 0 0 * A 2 1)),
      F.rnd (F.rnd (A 0 0 * A 1 1) - F.rnd (A 1 0 * A 0 1))]

theorem mtxAdjoint3x3_F (F : Rounding) (A : Matrix (Fin 3) (Fin 3) ℝ) (B : Matrix (Fin 3) (Fin 3) (FX F)) (t u : List (FX F)) :
    mtxAdjoint3x3 (matF F A t) (mtxOf B u) = ok (0, matF F (fadj3 F A) u) := by
  unfold mtxAdjoint3x3
  rw [if_neg (by simp), if_neg (by simp)]
  rw [matF_rd A t 0 0 0 rfl, matF_rd A t 1 0 1 rfl, matF_rd A t 2 0 2 rfl, matF_rd A t 3 1 0 rfl,
    matF_rd A t 4 1 1 rfl, matF_rd A t 5 1 2 rfl, matF_rd A t 6 2 0 rfl, matF_rd A t 7 2 1 rfl, matF_rd A t 8 2 2 rfl]
  simp only [ok_bind, FX.of_mul, FX.of_sub]
  have hB : (mtxOf B u).data = [B 0 0, B 0 1, B 0 2, B 1 0, B 1 1, B 1 2, B 2 0, B 2 1, B 2 2] ++ u := rfl
  rw [hB]
  have hA : ∀ C : Matrix (Fin 3) (Fin 3) ℝ, matF F C u = ⟨3, 3, [FX.of F (C 0 0), FX.of F (C 0 1), FX.of F (C 0 2), FX.of F (C 1 0),
      FX.of F (C 1 1), FX.of F (C 1 2), FX.of F (C 2 0), FX.of F (C 2 1), FX.of F (C 2 2)] ++ u⟩ := fun C => rfl
  rw [hA]
  simp only [wr, List.cons_append, List.nil_append, List.length_cons, List.set_cons_zero,
    List.set_cons_succ, Nat.zero_lt_succ, Nat.succ_lt_succ_iff, if_true, ok_bind, pure_eq, mtxOf_rows,
    mtxOf_cols]
  simp [fadj3]

theorem fadj3_err (F : Rounding) (A : Matrix (Fin 3) (Fin 3) ℝ) (i j : Fin 3) :
    Err F.u 2 (fadj3 F A i j) (A.adjugate i j) ((A.submatrix j.succAbove i.succAbove).map abs).permanent := by
  rw [perm2, Matrix.adjugate_fin_three]
  fin_cases i <;> fin_cases j <;> simp [fadj3, Fin.succAbove]
  · exact (fminor F (A 1 1) (A 2 2) (A 2 1) (A 1 2)).congr (by ring) (by ring)
  · exact (fminor F (A 2 1) (A 0 2) (A 0 1) (A 2 2)).congr (by ring) (by ring)
  · exact (fminor F (A 0 1) (A 1 2) (A 1 1) (A 0 2)).congr (by ring) (by ring)
  · exact (fminor F (A 2 0) (A 1 2) (A 1 0) (A 2 2)).congr (by ring) (by ring)
  · exact (fminor F (A 0 0) (A 2 2) (A 2 0) (A 0 2)).congr (by ring) (by ring)
  · exact (fminor F (A 1 0) (A 0 2) (A 0 0) (A 1 2)).congr (by ring) (by ring)
  · exact (fminor F (A 1 0) (A 2 1) (A 2 0) (A 1 1)).congr (by ring) (by ring)
  · exact (fminor F (A 2 0) (A 0 1) (A 0 0) (A 2 1)).congr (by ring) (by ring)
  · exact (fminor F (A 0 0) (A 1 1) (A 1 0) (A 0 1)).congr (by ring) (by ring)

/-- C159. `zsl_mtx_adjoint_3x3`: every element of the adjoint, up to two roundings of the products that make it up. -/
theorem mtx_adjoint_3x3_rounding (F : Rounding) (A : Matrix (Fin 3) (Fin 3) ℝ) (B : Matrix (Fin 3) (Fin 3) (FX F)) (t u : List (FX F)) :
    ∃ C : Matrix (Fin 3) (Fin 3) ℝ, mtxAdjoint3x3 (matF F A t) (mtxOf B u) = ok (0, matF F C u) ∧
      ∀ i j, |C i j - A.adjugate i j| ≤ gam F.u 2 * ((A.submatrix j.succAbove i.succAbove).map abs).permanent :=
  ⟨_, mtxAdjoint3x3_F F A B t u, fun i j => (fadj3_err F A i j).2⟩

/-- C159. `zsl_mtx_adjoint` for `n + 2` rows, other than 3: every cofactor up to `(n + 1) (n + 4) / 2 + 1` roundings of the products that make
it up (as in exact arithmetic the stored matrix is the transpose of the adjoint, `mtx_adjoint_exact`). -/
theorem mtx_adjoint_rounding (F : Rounding) (junk : ℕ → FX F) (A : Matrix (Fin (n + 2)) (Fin (n + 2)) ℝ)
    (B : Matrix (Fin (n + 2)) (Fin (n + 2)) (FX F)) (t u : List (FX F)) (h3 : n + 2 ≠ 3) :
    ∃ C : Matrix (Fin (n + 2)) (Fin (n + 2)) ℝ, mtxAdjoint junk (matF F A t) (mtxOf B u) = ok (0, matF F C u) ∧
      ∀ i j, |C i j - A.adjugate j i| ≤
        gam F.u ((n + 1) * (n + 4) / 2 + 1) * ((A.submatrix i.succAbove j.succAbove).map abs).permanent := by
  set C : Matrix (Fin (n + 2)) (Fin (n + 2)) ℝ :=
    Matrix.of fun i j => F.rnd (fdet F n (A.submatrix i.succAbove j.succAbove) * (-1) ^ (i.val + j.val)) with hC
  refine ⟨C, ?_, fun i j => ?_⟩
  · unfold mtxAdjoint
    rw [if_neg (by simpa using h3), if_neg (by simp), if_neg (by simp), matF_cols, show n + 2 - 1 = n + 1 from rfl]
    set G : ℕ → ℕ → FX F := ext (C.map (FX.of F)) with hG
    obtain ⟨M₀, hM₀⟩ := uninit_eq junk (n + 1) (n + 1)
    have hloop : (forN (n + 2) (fun i s =>
        forN (n + 2) (fun j (s : FX F × Mtx (FX F) × Mtx (FX F)) => do
          let (d, mr, ma) := s
          let sign : FX F := if (i + j) % 2 ≠ 0 then lit (-1) else lit 1
          let (_, mr) ← mtxReduce junk (junk 0) (matF F A t) mr i j
          let (_, d) ← mtxDeter junk mr d
          let d := d * sign
          let (_, ma) ← mtxSet ma i j d
          return (d, mr, ma)) s) (junk 0, Mtx.uninit junk (n + 1) (n + 1), mtxOf B u)).sat
        (fun s => s.2.2 = mkM (n + 2) (n + 2) G u) := by
      refine (forN_sat (fun i s => (∃ M : Matrix (Fin (n + 1)) (Fin (n + 1)) (FX F), s.2.1 = mtxOf M []) ∧
        s.2.2 = mkM (n + 2) (n + 2) (mix i 0 G (ext B)) u) ?_ ?_).mono ?_
      · refine ⟨⟨M₀, hM₀⟩, ?_⟩
        rw [mtxOf_eq]
        apply mkM_congr
        intro a _ b _
        simp [mix]
      · rintro i hi ⟨d, mr, ma⟩ ⟨h1, h2⟩
        refine (forN_sat (fun j s => (∃ M : Matrix (Fin (n + 1)) (Fin (n + 1)) (FX F), s.2.1 = mtxOf M []) ∧
          s.2.2 = mkM (n + 2) (n + 2) (mix i j G (ext B)) u) ⟨h1, h2⟩ ?_).mono ?_
        · rintro j hj ⟨d, mr, ma⟩ ⟨⟨M, hM⟩, h4⟩
          dsimp only at hM h4 ⊢
          rw [hM, h4]
          have hred := mtx_reduce_correct junk (junk 0) (A.map (FX.of F)) M t [] ⟨i, hi⟩ ⟨j, hj⟩ (by omega)
          change mtxReduce junk (junk 0) (matF F A t) _ i j = ok (0, matF F (A.submatrix _ _) []) at hred
          rw [hred]
          simp only [ok_bind]
          rw [mtxDeter_F]
          simp only [ok_bind]
          rw [mkM_set _ _ _ hi hj]
          simp only [ok_bind, pure_eq, sat_ok]
          refine ⟨⟨_, rfl⟩, ?_⟩
          rw [← upd_mix]
          congr 2
          rw [hG, ext_lt _ hi hj, fsign F (i + j)]
          rfl
        · rintro ⟨d, mr, ma⟩ ⟨h3, h4⟩
          refine ⟨h3, ?_⟩
          rw [h4]
          apply mkM_congr
          intro a _ b hb
          unfold mix
          split_ifs <;> first | rfl | (exfalso; omega)
      · rintro ⟨d, mr, ma⟩ ⟨_, h4⟩
        rw [h4]
        apply mkM_congr
        intro a ha b hb
        simp [mix, ha]
    obtain ⟨⟨d, mr, ma⟩, h1, h2⟩ := hloop
    rw [h1]
    simp only [ok_bind, pure_eq]
    dsimp only at h2
    rw [h2, hG, ← mtxOf_eq]
    rfl
  · have hs : Err F.u 0 ((-1 : ℝ) ^ (i.val + j.val)) ((-1) ^ (i.val + j.val)) 1 := by
      simpa using Err.exact F ((-1 : ℝ) ^ (i.val + j.val))
    have h := (((fdet_err F n (A.submatrix i.succAbove j.succAbove)).mul hs).rnd).congr (y' := A.adjugate j i)
      (p' := ((A.submatrix i.succAbove j.succAbove).map abs).permanent)
      (by rw [Matrix.adjugate_fin_succ_eq_det_submatrix, mul_comm]) (mul_one _)
    exact h.2

/-! ### The inverse of a 3x3 matrix -/

theorem mtxScalarMultD_F (F : Rounding) {r c : ℕ} (A : Matrix (Fin r) (Fin c) ℝ) (t : List (FX F)) (s : ℝ) :
    mtxScalarMultD (matF F A t) (FX.of F s) = ok (0, matF F (Matrix.of fun i j => F.rnd (A i j * s)) t) := by
  unfold mtxScalarMultD
  rw [matF_rows, matF_cols]
  unfold matF
  rw [mtxOf_eq, mtxOf_eq, mkM_data, forN_flat (ext ((Matrix.of fun i j => F.rnd (A i j * s)).map (FX.of F)))]
  · rfl
  · intro k hk
    have hd := div_lt_rows hk
    have hm := Nat.mod_lt k (pos_of_lt_mul hk)
    rw [mkD_fmix_rd _ _ _ hk, ok_bind, ext_lt _ hd hm, ext_lt _ hd hm]
    simp

/-- What `zsl_mtx_inv_3x3` stores when the computed determinant is not zero. -/
theorem mtxInv3x3_F (F : Rounding) (x0 : FX F) (A : Matrix (Fin 3) (Fin 3) ℝ) (B : Matrix (Fin 3) (Fin 3) (FX F)) (t u : List (FX F))
    (hd : fdet3 F A ≠ 0) : mtxInv3x3 x0 (matF F A t) (mtxOf B u) =
      ok (0, matF F (Matrix.of fun i j => F.rnd (fadj3 F A i j * F.rnd (1 / fdet3 F A))) u) := by
  unfold mtxInv3x3
  rw [if_neg (by simp), if_neg (by simp), if_neg (by simp), if_neg (by simp), mtxDeter3x3_F]
  simp only [ok_bind, ne_eq, not_true_eq_false, if_false]
  rw [mtxAdjoint3x3_F]
  simp only [ok_bind, not_true_eq_false, if_false, FX.lit_eq, Rat.cast_zero, Rat.cast_one, F.rnd_zero, F.one]
  rw [if_pos ((FX.of_ne _ _).2 hd), FX.of_div hd, mtxScalarMultD_F]
  rfl

/-- C159. `zsl_mtx_inv_3x3`: let `η` be five roundings of the sum of the absolute values of the products in the determinant, relative to the
determinant. If `η < 1` every element of the stored matrix differs from the inverse by at most `(γ₄ + η) / (1 - η)` times the sum of the
absolute values of the products in the cofactor, over the determinant. -/
theorem mtx_inv_3x3_rounding (F : Rounding) (x0 : FX F) (A : Matrix (Fin 3) (Fin 3) ℝ) (B : Matrix (Fin 3) (Fin 3) (FX F))
    (t u : List (FX F)) (η : ℝ) (hη : gam F.u 5 * (A.map abs).permanent = η * |A.det|) (h1 : η < 1) (hd : A.det ≠ 0) :
    ∃ C : Matrix (Fin 3) (Fin 3) ℝ, mtxInv3x3 x0 (matF F A t) (mtxOf B u) = ok (0, matF F C u) ∧
      ∀ i j, |C i j - A⁻¹ i j| ≤
        (gam F.u 4 + η) / (1 - η) * (((A.submatrix j.succAbove i.succAbove).map abs).permanent / |A.det|) := by
  have hD : 0 < |A.det| := abs_pos.2 hd
  have herr := (fdet3_err F A).2
  rw [hη] at herr
  have hη0 : 0 ≤ η := by
    by_contra h
    have : η * |A.det| < 0 := mul_neg_of_neg_of_pos (by linarith) hD
    linarith [abs_nonneg (fdet3 F A - A.det)]
  have hd' : fdet3 F A ≠ 0 := by
    intro h
    rw [h, zero_sub, abs_neg] at herr
    nlinarith
  refine ⟨_, mtxInv3x3_F F x0 A B t u hd', fun i j => ?_⟩
  rw [Matrix.of_apply]
  obtain ⟨s, hs, es⟩ := F.near (1 / fdet3 F A)
  obtain ⟨r, hr, er⟩ := F.near (fadj3 F A i j * F.rnd (1 / fdet3 F A))
  have hinv : A⁻¹ i j = A.adjugate i j / A.det := by
    rw [Matrix.inv_def, Matrix.smul_apply, smul_eq_mul, Ring.inverse_eq_inv', div_eq_mul_inv, mul_comm]
  have hE := fadj3_err F A i j
  generalize hP : ((A.submatrix j.succAbove i.succAbove).map abs).permanent = P at *
  have hsr : Err F.u 2 (s * r) 1 1 := by
    refine ⟨by simp, ?_⟩
    rw [mul_one]
    exact (hs.mul F.u_nonneg F.u_lt hr).abs_sub_one F.u_nonneg F.u_lt
  have hN := (hE.mul hsr).congr (y' := A.adjugate i j) (p' := P) (mul_one _) (mul_one _)
  rw [er, es, hinv]
  generalize fadj3 F A i j = a at *
  generalize A.adjugate i j = b at *
  generalize fdet3 F A = d at *
  generalize A.det = D at *
  have hdlow : (1 - η) * |D| ≤ |d| := by
    have := abs_sub_abs_le_abs_sub D d
    rw [abs_sub_comm] at this
    linarith
  have hdpos : 0 < |d| := abs_pos.2 hd'
  have key : a * (1 / d * s) * r - b / D = ((a * (s * r) - b) * D + b * (D - d)) / (d * D) := by
    field_simp
    ring
  rw [key, abs_div, abs_mul d D]
  have num : |(a * (s * r) - b) * D + b * (D - d)| ≤ (gam F.u 4 + η) * P * |D| := by
    refine (abs_add_le _ _).trans ?_
    rw [abs_mul, abs_mul]
    have k1 := mul_le_mul_of_nonneg_right hN.2 hD.le
    have k2 : |b| * |D - d| ≤ P * (η * |D|) := by
      rw [abs_sub_comm]
      exact mul_le_mul hE.1 herr (abs_nonneg _) hE.p_nonneg
    norm_num at k1
    linarith
  have hp0 := hE.p_nonneg
  have hg := gam_nonneg F.u_nonneg F.u_lt 4
  calc |(a * (s * r) - b) * D + b * (D - d)| / (|d| * |D|) ≤ (gam F.u 4 + η) * P * |D| / ((1 - η) * |D| * |D|) := by
        refine div_le_div₀ (by positivity) num (by have : 0 < 1 - η := by linarith
                                                   positivity) (mul_le_mul_of_nonneg_right hdlow hD.le)
    _ = (gam F.u 4 + η) / (1 - η) * (P / |D|) := by
        have : (1 - η) ≠ 0 := by linarith
        field_simp

/-- Non-vacuity: the hypotheses hold for the identity in double precision. -/
example (lib : Libm) : ∃ η : ℝ, gam (nearestRounding 52 lib).u 5 * ((1 : Matrix (Fin 3) (Fin 3) ℝ).map abs).permanent =
    η * |(1 : Matrix (Fin 3) (Fin 3) ℝ).det| ∧ η < 1 := by
  have e : (1 : Matrix (Fin 3) (Fin 3) ℝ).map abs = 1 := by
    ext i j
    by_cases h : i = j <;> simp [Matrix.one_apply, h]
  rw [e, Matrix.permanent_one, Matrix.det_one, abs_one]
  refine ⟨_, rfl, ?_⟩
  have hu : (nearestRounding 52 lib).u = 2⁻¹ / 2 ^ 52 := by
    simp [nearestRounding]
    try norm_num
  rw [hu]
  unfold gam
  norm_num

/-- Rounding to double precision. -/
theorem nearest_at {x : ℝ} (L : ℕ) (m : ℤ) (h1 : 2 ^ L ≤ x) (h2 : x < 2 ^ (L + 1)) (h3 : (m : ℝ) - 1 / 2 ≤ x * 2 ^ 52 / 2 ^ L)
    (h4 : x * 2 ^ 52 / 2 ^ L < m + 1 / 2) : nearest 52 x = m * 2 ^ L / 2 ^ 52 := by
  rw [nearest_of 52 (L := L) (by simpa using h1) (by exact_mod_cast h2)]
  have e : ((2 : ℝ) ^ ((L : ℤ) - (52 : ℕ))) = 2 ^ L / 2 ^ 52 := by
    rw [zpow_sub₀ (by norm_num)]
    norm_num
  rw [e, div_div_eq_mul_div]
  have : round (x * 2 ^ 52 / 2 ^ L) = m := by
    rw [round_eq, Int.floor_eq_iff]
    constructor <;> linarith
  rw [this, mul_div_assoc]

/-- C159, negation of C24 in floating point: `zsl_mtx_inv_3x3` recognises a singular matrix by comparing the computed determinant with zero.
There is a singular matrix of double precision numbers for which the computed determinant is not zero; the function returns 0 and stores
numbers beyond `10 ^ 15` in place of the identity. -/
theorem mtx_inv_3x3_singular_missed (lib : Libm) : ∃ A : Matrix (Fin 3) (Fin 3) ℝ, A.det = 0 ∧ (∀ i j, nearest 52 (A i j) = A i j) ∧
    ∀ (x0 : FX (nearestRounding 52 lib)) (B : Matrix (Fin 3) (Fin 3) (FX (nearestRounding 52 lib))) (t u : List (FX (nearestRounding 52 lib))),
      ∃ C : Matrix (Fin 3) (Fin 3) ℝ, mtxInv3x3 x0 (matF _ A t) (mtxOf B u) = ok (0, matF _ C u) ∧ C 0 0 < -10 ^ 15 := by
  obtain ⟨z, hz⟩ : ∃ z : ℝ, z = 1 + 15 / 2 ^ 52 := ⟨_, rfl⟩
  have rz : nearest 52 z = z := by
    rw [nearest_at 0 (2 ^ 52 + 15) (by rw [hz]; norm_num) (by rw [hz]; norm_num) (by rw [hz]; norm_num) (by rw [hz]; norm_num), hz]
    norm_num
  have r35 : nearest 52 (35 * z) = 35 + 16 / 2 ^ 47 := by
    rw [nearest_at 5 (35 * 2 ^ 47 + 16) (by rw [hz]; norm_num) (by rw [hz]; norm_num) (by rw [hz]; norm_num) (by rw [hz]; norm_num)]
    norm_num
  have r5 : nearest 52 (5 * z) = 5 + 19 / 2 ^ 50 := by
    rw [nearest_at 2 (5 * 2 ^ 50 + 19) (by rw [hz]; norm_num) (by rw [hz]; norm_num) (by rw [hz]; norm_num) (by rw [hz]; norm_num)]
    norm_num
  have r7 : nearest 52 (7 * (5 + 19 / 2 ^ 50)) = 35 + 17 / 2 ^ 47 := by
    rw [nearest_at 5 (35 * 2 ^ 47 + 17) (by norm_num) (by norm_num) (by norm_num) (by norm_num)]
    norm_num
  have rnat : ∀ k : ℕ, k < 2 ^ 53 → nearest 52 (k : ℝ) = k := fun k hk => nearest_nat 52 k hk
  have rpow : nearest 52 (-(1 / 2 ^ 47)) = -(1 / 2 ^ 47) := by
    rw [nearest_neg, nearest_of 52 (L := -47) (by norm_num [zpow_neg]) (by norm_num [zpow_neg])]
    have e : (1 / 2 ^ 47 : ℝ) / 2 ^ ((-47 : ℤ) - (52 : ℕ)) = ((2 ^ 52 : ℤ) : ℝ) := by norm_num [zpow_neg]
    rw [e, round_intCast]
    norm_num [zpow_neg]
  have hidem : ∀ x, nearest 52 (nearest 52 x) = nearest 52 x := (nearestRounding 52 lib).idem
  have r0 : nearest 52 0 = 0 := nearest_zero 52
  have r35' : nearest 52 (35 + 16 / 2 ^ 47) = 35 + 16 / 2 ^ 47 := by rw [← r35, hidem]
  have r5' : nearest 52 (5 + 19 / 2 ^ 50) = 5 + 19 / 2 ^ 50 := by rw [← r5, hidem]
  have hfd : fdet3 (nearestRounding 52 lib) !![1, 5, 0; 7, 35, 0; 0, 0, z] = -(1 / 2 ^ 47) := by
    change nearest 52 (nearest 52 (nearest 52 (1 * nearest 52 (nearest 52 (35 * z) - nearest 52 (0 * 0))) -
      nearest 52 (7 * nearest 52 (nearest 52 (5 * z) - nearest 52 (0 * 0)))) +
      nearest 52 (0 * nearest 52 (nearest 52 (5 * 0) - nearest 52 (35 * 0)))) = _
    rw [r35, r5, mul_zero, mul_zero, mul_zero, r0, sub_zero, sub_zero, r35', one_mul, r35', r5', r7, zero_mul, r0, add_zero, hidem,
      show (35 + 16 / 2 ^ 47 - (35 + 17 / 2 ^ 47) : ℝ) = -(1 / 2 ^ 47) by norm_num]
    exact rpow
  refine ⟨!![1, 5, 0; 7, 35, 0; 0, 0, z], ?_, ?_, fun x0 B t u => ⟨_, mtxInv3x3_F _ x0 _ B t u (by rw [hfd]; norm_num), ?_⟩⟩
  · rw [Matrix.det_fin_three]
    simp
    ring
  · have n1 := rnat 1 (by norm_num)
    have n5 := rnat 5 (by norm_num)
    have n7 := rnat 7 (by norm_num)
    have n35 := rnat 35 (by norm_num)
    norm_num at n1 n5 n7 n35
    intro i j
    fin_cases i <;> fin_cases j <;> simp [n1, n5, n7, n35, r0, rz]
  · rw [Matrix.of_apply, hfd]
    change nearest 52 (nearest 52 (nearest 52 (35 * z) - nearest 52 (0 * 0)) * nearest 52 (1 / -(1 / 2 ^ 47))) < -10 ^ 15
    rw [r35, mul_zero, r0, sub_zero, r35', show (1 / -(1 / 2 ^ 47) : ℝ) = -((2 ^ 47 : ℕ) : ℝ) by norm_num, nearest_neg, rnat _ (by norm_num)]
    have e : (35 + 16 / 2 ^ 47 : ℝ) * -((2 ^ 47 : ℕ) : ℝ) = -((35 * 2 ^ 47 + 16 : ℕ) : ℝ) := by norm_num
    rw [e, nearest_neg, rnat _ (by norm_num)]
    norm_num

end Verif
