import Verif.Lemmas.Round

/-!
# Agreement of a computation with rounding and the exact one

The vocabulary of C131 and C132. The model functions are the same text for every scalar type; here the result over the exact scalars `XR` is compared with
the result over the rounding scalars `FX F`.
-/

namespace Verif

/-- The two results have the same code, and if the exact result is the number `r`, the computed one is a number whose relative error is at most that
of `k` roundings. -/
def Agrees (F : Rounding) (k : ℕ) (x : Int × XR) (y : Int × FX F) : Prop :=
  x.1 = y.1 ∧ ∀ r : ℝ, x = (0, XR.fin r) → ∃ s : ℝ, y = (0, FX.of F s) ∧ |s - r| ≤ gam F.u k * |r|

/-- The same for sums: the error is relative to `m`, the sum of the absolute values of the terms. -/
def AgreesUpTo (F : Rounding) (k : ℕ) (m : ℝ) (x : Int × XR) (y : Int × FX F) : Prop :=
  x.1 = y.1 ∧ ∀ r : ℝ, x = (0, XR.fin r) → ∃ s : ℝ, y = (0, FX.of F s) ∧ |s - r| ≤ gam F.u k * m

end Verif
