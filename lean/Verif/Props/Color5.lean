import Mathlib.LinearAlgebra.Matrix.Determinant.Basic
import Mathlib.LinearAlgebra.Matrix.NonsingularInverse
import Verif.Props.Color2

/-!
# Reference data: illuminants and RGB matrices (C104)
-/

namespace Verif

open Out XR Matrix

/-- C104. Every illuminant is found for the 2° observer; its entry is the one asked for, its luminance is 1 and X and Z are positive. -/
theorem illum_get_correct (ill : Illum) : ∃ x y z : ℚ, clrIllumGet .deg2 ill = ok (0, some (ill, .deg2, x, y, z)) ∧
    y = 1 ∧ 0 < x ∧ 0 < z := by
  cases ill <;> refine ⟨_, _, _, rfl, ?_, ?_, ?_⟩ <;> norm_num

/-- C104. No illuminant has an entry for the 10° observer: every such query is answered with `-EINVAL`, and the pointer is not set. -/
theorem illum_get_10deg (ill : Illum) : clrIllumGet .deg10 ill = ok (-EINVAL, none) := by
  cases ill <;> rfl

/-- The entries of the `k`-th matrix. -/
noncomputable def ccm (k : ℕ) : Matrix (Fin 3) (Fin 3) ℝ :=
  Matrix.of fun i j => (((ccmTable.getD k (0, 0, [])).2.2.getD (3 * i + j) 0 : ℚ) : ℝ)

/-- C104. `zsl_clr_rgbccm_get` returns a 3×3 matrix for each of the 13 enumerators. -/
theorem rgbccm_get_correct (k : ℕ) (hk : k < 13) : (clrRgbccmGet k : Out (Mtx XR)) = ok (mat (ccm k) []) := by
  interval_cases k <;> rfl

/-- C104. Any other index reads beyond the table. -/
theorem rgbccm_get_ub (k : ℕ) (hk : 13 ≤ k) : (clrRgbccmGet k : Out (Mtx XR)) = ub := by
  unfold clrRgbccmGet
  rw [rd_ge (by exact hk)]
  rfl

/-- The determinant in rational arithmetic. -/
def ratDet (l : List ℚ) : ℚ :=
  l.getD 0 0 * (l.getD 4 0 * l.getD 8 0 - l.getD 5 0 * l.getD 7 0) - l.getD 1 0 * (l.getD 3 0 * l.getD 8 0 - l.getD 5 0 * l.getD 6 0)
    + l.getD 2 0 * (l.getD 3 0 * l.getD 7 0 - l.getD 4 0 * l.getD 6 0)

theorem ccm_det_eq (k : ℕ) : (ccm k).det = (ratDet (ccmTable.getD k (0, 0, [])).2.2 : ℝ) := by
  rw [Matrix.det_fin_three, ratDet]
  simp only [ccm, Matrix.of_apply]
  push_cast
  simp
  ring

/-- C104. Every matrix is regular and keeps the orientation of the space. -/
theorem ccm_det_pos (k : ℕ) (hk : k < 13) : 1 < (ccm k).det := by
  have h : ∀ k < 13, 1 < ratDet (ccmTable.getD k (0, 0, [])).2.2 := by decide +kernel
  rw [ccm_det_eq]
  exact_mod_cast h k hk

/-- C104. Different colours have different RGB coordinates before clipping, whichever matrix is used. -/
theorem ccm_injective (k : ℕ) (hk : k < 13) (p q : Fin 3 → ℝ) (h : ccm k *ᵥ p = ccm k *ᵥ q) : p = q := by
  have hu : IsUnit (ccm k).det := (by have := ccm_det_pos k hk; linarith : (ccm k).det ≠ 0).isUnit
  have := congrArg (fun v => (ccm k)⁻¹ *ᵥ v) h
  simpa [Matrix.mulVec_mulVec, Matrix.nonsing_inv_mul _ hu] using this

/-- The white point of an illuminant, for the 2° observer. -/
noncomputable def white (ill : Illum) : Xyz ℝ :=
  let e := (illumTable.find? fun e => decide (e.1 = ill)).getD (ill, .deg2, 0, 0, 0)
  ⟨e.2.2.1, e.2.2.2.1, e.2.2.2.2, .deg2, ill, false, false, false⟩

/-- It is the one `zsl_clr_illum_get` returns. -/
theorem white_eq (ill : Illum) : ∃ x y z : ℚ, clrIllumGet .deg2 ill = ok (0, some (ill, .deg2, x, y, z)) ∧
    white ill = ⟨x, y, z, .deg2, ill, false, false, false⟩ := by
  cases ill <;> exact ⟨_, _, _, rfl, rfl⟩

/-- The RGB spaces whose reference white is in the list of illuminants: sRGB D65, sRGB D50, Adobe RGB, S-Gamut3.Cine, NTSC, PAL/SECAM,
BT.709, BT.2020 and CIE RGB. -/
def references : List (ℕ × Illum) :=
  [(0, .D65), (1, .D50), (2, .D65), (3, .D65), (4, .C), (5, .D65), (6, .D65), (7, .D65), (12, .E)]

/-- One channel of a white, in rational arithmetic. -/
def ratWhite (k : ℕ) (ill : Illum) (i : ℕ) : ℚ :=
  let e := (illumTable.find? fun e => decide (e.1 = ill)).getD (ill, .deg2, 0, 0, 0)
  let l := (ccmTable.getD k (0, 0, [])).2.2
  l.getD (3 * i) 0 * e.2.2.1 + l.getD (3 * i + 1) 0 * e.2.2.2.1 + l.getD (3 * i + 2) 0 * e.2.2.2.2

theorem ratWhite_eq (k : ℕ) (ill : Illum) (i : Fin 3) :
    (ccm k *ᵥ ![(white ill).x, (white ill).y, (white ill).z]) i = (ratWhite k ill i : ℝ) := by
  simp only [Matrix.mulVec, dotProduct, Fin.sum_univ_three, ccm, Matrix.of_apply, white, ratWhite]
  push_cast
  simp

/-- C104. The RGB matrices agree with the list of illuminants: the reference white of each of these nine spaces becomes (1, 1, 1) up to
0.0002 in every channel, with or without bound capping. -/
theorem white_is_white (k : ℕ) (ill : Illum) (hk : (k, ill) ∈ references) (cap : Bool) (junk : ℕ → XR) :
    ∃ (r g b : ℝ) (fr fg fb : Bool), (clrRgbccmGet k >>= clrXyzRgbf cap junk (white ill).emb) =
      ok (0, ⟨fin r, fin g, fin b, fin 1, fr, fg, fb, false⟩) ∧ |r - 1| ≤ 2e-4 ∧ |g - 1| ≤ 2e-4 ∧ |b - 1| ≤ 2e-4 := by
  have hk13 : k < 13 := by
    simp only [references, List.mem_cons, Prod.mk.injEq, List.not_mem_nil, or_false] at hk
    omega
  have hr : ∀ e ∈ references, ∀ i < 3, ratWhite e.1 e.2 i - 1 ≤ 0.0002 ∧ -0.0002 ≤ ratWhite e.1 e.2 i - 1 := by decide +kernel
  have hb : ∀ i : Fin 3, |(ccm k *ᵥ ![(white ill).x, (white ill).y, (white ill).z]) i - 1| ≤ 2e-4 := by
    intro i
    obtain ⟨h1, h2⟩ := hr (k, ill) hk i i.isLt
    rw [ratWhite_eq, abs_le]
    have h1 := (Rat.cast_le (K := ℝ)).mpr h1
    have h2 := (Rat.cast_le (K := ℝ)).mpr h2
    push_cast at h1 h2
    norm_num at h1 h2 ⊢
    constructor <;> linarith
  have hclip : ∀ x : ℝ, |x - 1| ≤ 2e-4 → |(if cap then clip x else x) - 1| ≤ 2e-4 := by
    intro x hx
    split
    · unfold clip
      rw [abs_le] at hx ⊢
      rcases le_total x 1 with h | h
      · rw [min_eq_right h, max_eq_right (by norm_num at hx; linarith)]
        exact hx
      · rw [min_eq_left h, max_eq_right (by norm_num)]
        norm_num
    · exact hx
  rw [rgbccm_get_correct k hk13, ok_bind, rgbf_correct]
  exact ⟨_, _, _, _, _, _, rfl, hclip _ (hb 0), hclip _ (hb 1), hclip _ (hb 2)⟩

/-- C104. The white of sRGB is out of the gamut of sRGB: converting the D65 white point with the D65 matrix flags the red channel,
although it is the white the matrix is made for (its red product is 1.00000006). -/
theorem d65_flagged (cap : Bool) (junk : ℕ → XR) : ∃ r : Rgbf XR,
    (clrRgbccmGet 0 >>= clrXyzRgbf cap junk (white .D65).emb) = ok (0, r) ∧ r.rInv = true := by
  rw [rgbccm_get_correct 0 (by omega), ok_bind, rgbf_correct]
  refine ⟨_, rfl, ?_⟩
  simp only [decide_eq_true_eq]
  right
  rw [ratWhite_eq]
  have : (1 : ℚ) ≤ ratWhite 0 .D65 0 := by decide +kernel
  exact_mod_cast this

/-- C104. The z function of the 2° observer has a dip: its value at 380 nm is below those at 375 nm and 385 nm (0.000645 is tabulated
where ten times as much would continue the rise). -/
theorem observer_dip : (cmf .deg2 380).2.2 < (cmf .deg2 375).2.2 ∧ (cmf .deg2 375).2.2 < (cmf .deg2 385).2.2 := by
  have h : ((clrObsGet .deg2).getD 4 (0, 0, 0)).2.2 < ((clrObsGet .deg2).getD 3 (0, 0, 0)).2.2 ∧
      ((clrObsGet .deg2).getD 3 (0, 0, 0)).2.2 < ((clrObsGet .deg2).getD 5 (0, 0, 0)).2.2 := by decide +kernel
  unfold cmf
  simp only [Nat.reduceSub, Nat.reduceDiv]
  exact_mod_cast h

end Verif
