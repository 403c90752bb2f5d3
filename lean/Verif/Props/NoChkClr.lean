import Verif.Model.NoChkClr
import Verif.Props.NoChk1
import Verif.Props.Color2

/-!
# Builds without bounds checks: colorimetry
-/

set_option linter.unusedSectionVars false

namespace Verif

open NoChkL Out

section General

variable {R : Type} [CReal R]

theorem mult_accepted {a b c c' : Mtx R} (h : mtxMult a b c = ok (0, c')) : a.cols = b.rows ∧ c.rows = a.rows ∧ c.cols = b.cols := by
  unfold mtxMult at h
  have h1 := passed h
  rw [if_neg h1] at h
  have h2 := passed h
  omega

theorem xyzRgbf_same {cap : Bool} {junk : Nat → R} {c : Xyz R} {m : Mtx R} {f : Rgbf R} (h : clrXyzRgbf cap junk c m = ok (0, f)) :
    NoChk.clrXyzRgbf cap junk c m = ok (0, f) := by
  refine Eq.trans ?_ h
  unfold NoChk.clrXyzRgbf clrXyzRgbf
  unfold clrXyzRgbf at h
  obtain ⟨⟨_, xm⟩, hx, h⟩ := bind_ok h
  obtain ⟨⟨_, rm⟩, hr, h⟩ := bind_ok h
  have hxs := init_none.2 _ _ hx
  have hrs := init_none.2 _ _ hr
  cases hx.symm.trans hr
  rw [init_none.1, hx]
  simp only [ok_bind]
  dsimp only at h
  refine bind_congr_ok rfl fun d0 e0 => bind_congr_ok rfl fun d1 e1 => bind_congr_ok rfl fun d2 e2 => ?_
  rw [e0, ok_bind, e1, ok_bind, e2, ok_bind] at h
  obtain ⟨⟨rc, rm'⟩, hm, h⟩ := bind_ok h
  dsimp only at h
  have hrc : rc = 0 := by
    by_contra hne
    rw [if_pos hne] at h
    cases h
    exact hne rfl
  subst hrc
  obtain ⟨g1, g2, g3⟩ := mult_accepted hm
  rw [mult_eq g1 g2 g3]

/-- C147. `zsl_clr_conv_xyz_rgbf` and `zsl_clr_conv_xyz_rgb8`. -/
theorem nochk_clr_xyz_rgb (cap : Bool) (junk : Nat → R) (c : Xyz R) (m : Mtx R) (o : Rgb8) :
    SameIfAccepted (clrXyzRgbf cap junk c m) (NoChk.clrXyzRgbf cap junk c m) ∧
      SameIfAccepted (clrXyzRgb8 cap junk c m o) (NoChk.clrXyzRgb8 cap junk c m o) := by
  refine ⟨fun out h => xyzRgbf_same h, fun out h => ?_⟩
  refine Eq.trans ?_ h
  unfold clrXyzRgb8 at h ⊢
  unfold NoChk.clrXyzRgb8
  obtain ⟨⟨rc, f⟩, hf, h⟩ := bind_ok h
  dsimp only at h
  have hrc : rc = 0 := by
    by_contra hne
    rw [if_pos hne] at h
    cases h
    exact hne rfl
  subst hrc
  rw [hf, xyzRgbf_same hf]

/-- C147. `zsl_clr_conv_ct_rgbf` and `zsl_clr_conv_ct_rgb8`. -/
theorem nochk_clr_ct_rgb (cap : Bool) (junk : Nat → R) (ct : R) (obs : Obs) (m : Mtx R) (f : Rgbf R) (o : Rgb8) :
    SameIfAccepted (clrCtRgbf cap junk ct obs m f) (NoChk.clrCtRgbf cap junk ct obs m f) ∧
      SameIfAccepted (clrCtRgb8 cap junk ct obs m o) (NoChk.clrCtRgb8 cap junk ct obs m o) := by
  constructor
  · intro out h
    unfold clrCtRgbf at h
    unfold NoChk.clrCtRgbf
    obtain ⟨⟨rc, x⟩, hx, h⟩ := bind_ok h
    rw [hx, ok_bind]
    dsimp only at h ⊢
    by_cases hne : rc ≠ 0
    · rwa [if_pos hne] at h ⊢
    · rw [if_neg hne] at h ⊢
      exact (nochk_clr_xyz_rgb cap junk x m o).1 _ h
  · intro out h
    unfold clrCtRgb8 at h
    unfold NoChk.clrCtRgb8
    obtain ⟨⟨rc, x⟩, hx, h⟩ := bind_ok h
    rw [hx, ok_bind]
    dsimp only at h ⊢
    by_cases hne : rc ≠ 0
    · rwa [if_pos hne] at h ⊢
    · rw [if_neg hne] at h ⊢
      exact (nochk_clr_xyz_rgb cap junk x m o).2 _ h

end General

example (cap : Bool) (junk : ℕ → XR) (obs : Obs) (A : Matrix (Fin 3) (Fin 3) ℝ) (o : Rgb8) :
    (NoChk.clrCtRgb8 cap junk (XR.fin 5000) obs (mat A []) o).sat fun r => r.1 = 0 ∧ r.2.r ≤ 255 ∧ r.2.g ≤ 255 ∧ r.2.b ≤ 255 := by
  obtain ⟨⟨rc, r⟩, h, h0, hr⟩ := (ct_rgb_correct cap junk 5000 (by norm_num) obs A [] ⟨XR.nan, XR.nan, XR.nan, XR.nan, false, false, false, false⟩ o).2.2
  dsimp only at h0 hr
  subst h0
  exact ⟨_, (nochk_clr_ct_rgb _ _ _ _ _ ⟨XR.nan, XR.nan, XR.nan, XR.nan, false, false, false, false⟩ _).2 _ h, rfl, hr⟩

end Verif
