import Verif.Base.XR
import Verif.Model.Interp

/-! # What the interpolation theorems talk about -/

namespace Verif

/-- A table of points in memory, followed by whatever comes after it. -/
noncomputable def xyTab {n : ℕ} (xs ys : Fin n → ℝ) (t : List (XY XR)) : List (XY XR) :=
  List.ofFn (fun i => ⟨XR.fin (xs i), XR.fin (ys i)⟩) ++ t

/-- A table of `n` spline points `(X i, Y i)` with second derivatives `M i` in memory, followed by whatever comes after it. -/
noncomputable def xycTab (n : ℕ) (X Y : ℕ → ℝ) (M : ℕ → XR) (t : List (XYC XR)) : List (XYC XR) :=
  (List.range n).map (fun i => ⟨XR.fin (X i), XR.fin (Y i), M i⟩) ++ t

/-- `x` lies between `a` and `b`, whichever is larger. -/
def Between (a x b : ℝ) : Prop := (a ≤ x ∧ x ≤ b) ∨ (b ≤ x ∧ x ≤ a)

/-- The value at `x` of the straight line through `(x1, y1)` and `(x3, y3)`. -/
noncomputable def chord (x1 y1 x3 y3 x : ℝ) : ℝ := y1 + (y3 - y1) / (x3 - x1) * (x - x1)

/-- The cubic polynomial through `(x0, y0)` and `(x1, y1)` whose second derivative runs linearly from `m0` at `x0` to `m1` at `x1`. -/
noncomputable def cubicPiece (x0 y0 m0 x1 y1 m1 x : ℝ) : ℝ :=
  y0 * (x1 - x) / (x1 - x0) + y1 * (x - x0) / (x1 - x0)
    + m0 / 6 * ((x1 - x) ^ 3 / (x1 - x0) - (x1 - x) * (x1 - x0))
    + m1 / 6 * ((x - x0) ^ 3 / (x1 - x0) - (x - x0) * (x1 - x0))

/-- Piece `k` of the cubic spline with knots `(X i, Y i)` and second derivatives `M i`. -/
noncomputable def splinePiece (X Y M : ℕ → ℝ) (k : ℕ) : ℝ → ℝ :=
  cubicPiece (X k) (Y k) (M k) (X (k + 1)) (Y (k + 1)) (M (k + 1))

end Verif
