import Verif.Base.XR
import Mathlib.Algebra.BigOperators.Fin
import Mathlib.Data.List.Sort
import Mathlib.Data.Matrix.Basic

/-! # Textbook statistics -/

namespace Verif

/-- Arithmetic mean. -/
noncomputable def meanOf {n : ℕ} (x : Fin n → ℝ) : ℝ := (∑ i, x i) / n

/-- Sample covariance. -/
noncomputable def covOf {n : ℕ} (x y : Fin n → ℝ) : ℝ := (∑ i, (x i - meanOf x) * (y i - meanOf y)) / ((n : ℝ) - 1)

/-- Sample variance. -/
noncomputable def varOf {n : ℕ} (x : Fin n → ℝ) : ℝ := (∑ i, (x i - meanOf x) ^ 2) / ((n : ℝ) - 1)

/-- Sum of squared residuals of the line with the given slope and intercept. -/
noncomputable def sqResid {n : ℕ} (x y : Fin n → ℝ) (slope intercept : ℝ) : ℝ := ∑ i, (y i - (slope * x i + intercept)) ^ 2

/-- The data do not all have the same value. -/
def NonConst {n : ℕ} (x : Fin n → ℝ) : Prop := ∃ i j, x i ≠ x j

/-- The data in ascending order. -/
noncomputable def sortedOf {n : ℕ} (x : Fin n → ℝ) : List ℝ := (List.ofFn x).insertionSort (· ≤ ·)

/-- `v` is a `p`-th percentile of the data: at least `p` percent of the data are at most `v`, and at least `100 - p` percent are at
least `v`. -/
def IsPercentile {n : ℕ} (x : Fin n → ℝ) (p v : ℝ) : Prop :=
  p / 100 * n ≤ (Finset.univ.filter fun i => x i ≤ v).card ∧ (100 - p) / 100 * n ≤ (Finset.univ.filter fun i => v ≤ x i).card

/-- Sum of the squared residuals of the linear model with intercept `b 0` and coefficients `b 1, b 2, ...`, where residual `i` counts
`d i` times. -/
noncomputable def regResid {r c : ℕ} (d : Fin r → ℝ) (X : Matrix (Fin r) (Fin c) ℝ) (y : Fin r → ℝ) (b : Fin (c + 1) → ℝ) : ℝ :=
  ∑ i, d i * (y i - (b 0 + ∑ j, X i j * b j.succ)) ^ 2

end Verif
