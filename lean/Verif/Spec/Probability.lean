import Mathlib.MeasureTheory.Integral.Bochner.Set
import Mathlib.MeasureTheory.Measure.Lebesgue.Basic
import Mathlib.Analysis.SpecialFunctions.Log.Base
import Mathlib.Data.Nat.Choose.Sum

/-!
# Specification: probability distributions
-/

namespace Verif

open MeasureTheory

/-- `f` is a density with distribution function `F`. -/
structure IsDistribution (f F : ℝ → ℝ) : Prop where
  nonneg : ∀ x, 0 ≤ f x
  total : ∫ x, f x = 1
  cdf : ∀ x, F x = ∫ t in Set.Iic x, f t

/-- Shannon entropy in bits, with `0 log 0 = 0`. -/
noncomputable def shannon {n : ℕ} (x : Fin n → ℝ) : ℝ := ∑ i, -(x i * Real.logb 2 (x i))

/-- The binomial probability function. -/
noncomputable def binom (n : ℕ) (p : ℝ) (k : ℕ) : ℝ := n.choose k * p ^ k * (1 - p) ^ (n - k)

end Verif
