import Mathlib.Algebra.BigOperators.Group.Finset.Basic
import Verif.Model.Colorimetry
import Verif.Spec.Matrix

/-!
# What the colorimetry theorems talk about

Colours with real coordinates, and the embedding of a colour with real coordinates into the values of the model.
-/

namespace Verif

/-- The colour with these real coordinates, as the program sees it. -/
def Xyz.emb (c : Xyz ℝ) : Xyz XR := ⟨.fin c.x, .fin c.y, .fin c.z, c.obs, c.illum, c.xInv, c.yInv, c.zInv⟩

/-- The colour with these real coordinates, as the program sees it. -/
def Xyy.emb (c : Xyy ℝ) : Xyy XR := ⟨.fin c.x, .fin c.y, .fin c.Y, c.obs, c.illum, c.xInv, c.yInv, c.YInv⟩

/-- The colour with these real coordinates, as the program sees it. -/
def Uv60.emb (c : Uv60 ℝ) : Uv60 XR := ⟨.fin c.u, .fin c.v, c.obs, c.illum, c.uInv, c.vInv⟩

/-- The colour with these real coordinates, as the program sees it. -/
def Uv76.emb (c : Uv76 ℝ) : Uv76 XR := ⟨.fin c.u, .fin c.v, c.obs, c.illum, c.uInv, c.vInv⟩

/-- A temperature and an offset that are real numbers, as the program sees them. -/
def Cct.emb (c : Cct ℝ) : Cct XR := ⟨.fin c.cct, .fin c.duv, c.cctInv, c.duvInv⟩

/-- The spectrum with these real values, as the program sees it. -/
def Spd.emb (l : List (ℕ × ℝ)) (t : List (ℕ × XR)) : Spd XR := ⟨l.length, l.map (fun c => (c.1, .fin c.2)) ++ t⟩

/-- The observer's colour matching functions at the wavelength `nm`, on the 5 nm grid that starts at 360 nm: the entry at or below
the wavelength. -/
noncomputable def cmf (obs : Obs) (nm : ℕ) : ℝ × ℝ × ℝ :=
  let row := (clrObsGet obs).getD ((nm - 360) / 5) (0, 0, 0)
  (row.1, row.2.1, row.2.2)

/-- The samples of a spectrum that count: those from 360 nm to 830 nm. -/
def usable (l : List (ℕ × ℝ)) : List (ℕ × ℝ) := l.filter fun c => 360 ≤ c.1 ∧ c.1 ≤ 830

/-- The sum over the usable samples of the value times a colour matching function. -/
noncomputable def response (obs : Obs) (f : ℝ × ℝ × ℝ → ℝ) (l : List (ℕ × ℝ)) : ℝ :=
  ((usable l).map fun c => c.2 * f (cmf obs c.1)).sum

/-- Planck's law: the spectral exitance of a black body of temperature `T` (in kelvin) at the wavelength `w` (in metres), with the
radiation constants of the code. -/
noncomputable def planck (T w : ℝ) : ℝ :=
  3.74183162616761619e-16 / (w ^ 5 * (Real.exp (1.4387863142323088e-2 / (w * T)) - 1))

/-- The wavelength of the `k`-th point of the 5 nm grid, in nanometres. -/
def gridNm (k : ℕ) : ℕ := 360 + 5 * k

/-- The sum over the grid of the black body times a colour matching function. -/
noncomputable def glow (obs : Obs) (f : ℝ × ℝ × ℝ → ℝ) (T : ℝ) : ℝ :=
  ∑ k ∈ Finset.range 95, planck T (gridNm k * 1e-9) * f (cmf obs (gridNm k))

/-- The `k`-th row of the table of the black body locus: temperature, u and v. -/
noncomputable def locusT (k : ℕ) : ℝ := (ohno2014Table.getD k (0, 0, 0)).1
noncomputable def locusU (k : ℕ) : ℝ := (ohno2014Table.getD k (0, 0, 0)).2.1
noncomputable def locusV (k : ℕ) : ℝ := (ohno2014Table.getD k (0, 0, 0)).2.2

/-- The squared distance of the chromaticity from the `k`-th row. -/
noncomputable def locusD2 (k : ℕ) (u v : ℝ) : ℝ := (locusU k - u) ^ 2 + (locusV k - v) ^ 2

/-- The squared distance of the neighbours of the `m`-th row. -/
noncomputable def locusL2 (m : ℕ) : ℝ := (locusU (m + 1) - locusU (m - 1)) ^ 2 + (locusV (m + 1) - locusV (m - 1)) ^ 2

/-- The first of the rows nearest to the chromaticity. -/
def NearestRow (m : ℕ) (u v : ℝ) : Prop :=
  m < 304 ∧ (∀ j < 304, locusD2 m u v ≤ locusD2 j u v) ∧ ∀ j < m, locusD2 m u v < locusD2 j u v

/-- Ohno's triangular solution: the temperature at the foot of the perpendicular from the chromaticity to the line through the
neighbours of the row `m`, interpolated linearly between theirs. -/
noncomputable def triangular (m : ℕ) (u v : ℝ) : ℝ :=
  locusT (m - 1) + (locusT (m + 1) - locusT (m - 1)) *
    (((u - locusU (m - 1)) * (locusU (m + 1) - locusU (m - 1)) + (v - locusV (m - 1)) * (locusV (m + 1) - locusV (m - 1)))
      / locusL2 m)

/-- The polynomial with these coefficients, the constant first. -/
noncomputable def poly6 (k : List ℚ) (a : ℝ) : ℝ := ∑ i ∈ Finset.range 7, (k.getD i 0 : ℝ) * a ^ i

/-- The distance from the point (0.292, 0.24), around which the locus is described in polar coordinates. -/
noncomputable def focusDist (u v : ℝ) : ℝ := Real.sqrt ((u - 0.292) ^ 2 + (v - 0.24) ^ 2)

end Verif
