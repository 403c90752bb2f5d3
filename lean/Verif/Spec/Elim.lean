import Verif.Lemmas.Gauss2
import Mathlib.LinearAlgebra.LinearIndependent.Defs
import Mathlib.LinearAlgebra.Matrix.ToLin

/-!
# Gauss-Jordan elimination without tiny numbers

The elimination treats numbers below `1e-6` as zero. `NoTiny A` says that this makes no difference for `A`: every number that the
elimination of `A` compares with `1e-6` is zero or at least `1e-6`.
-/

namespace Verif

open Matrix

variable {n : ℕ}

/-- `Reach A k M`: after the first `k` columns the elimination of `A` has arrived at `M`. -/
inductive Reach (A : Matrix (Fin n) (Fin n) ℝ) : ℕ → Matrix (Fin n) (Fin n) ℝ → Prop
  | start : Reach A 0 A
  | step (k : Fin n) (M Q : Matrix (Fin n) (Fin n) ℝ) : Reach A k M → PivotRow M k Q → Reach A (k.val + 1) (stepMat (Q * M) k * (Q * M))

/-- No number in the column about to be eliminated is tiny but not zero. -/
def NoTiny (A : Matrix (Fin n) (Fin n) ℝ) : Prop :=
  ∀ (k : Fin n) (M : Matrix (Fin n) (Fin n) ℝ), Reach A k M → ∀ q, M q k = 0 ∨ 1 / 1000000 ≤ |M q k|

/-- A basis of the solutions of `A x = 0`, as a list. -/
structure KerBasis (A : Matrix (Fin n) (Fin n) ℝ) (l : List (Fin n → ℝ)) : Prop where
  ker : ∀ v ∈ l, A *ᵥ v = 0
  indep : LinearIndependent ℝ l.get
  span : ∀ x, A *ᵥ x = 0 → x ∈ Submodule.span ℝ {v | v ∈ l}

end Verif
