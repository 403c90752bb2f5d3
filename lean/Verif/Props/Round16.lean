import Verif.Props.Round12
import Verif.Props.Quat3
import Verif.Props.Vectors1
import Mathlib.Analysis.SpecialFunctions.Trigonometric.Bounds

/-!
# Quaternions from angles in floating point, with an accurate library (C165)
-/

set_option linter.unusedSectionVars false

namespace Verif

open Out Quaternion

variable {F : Rounding}

/-- The sine and the cosine of the library are accurate up to `k` roundings. -/
def AccurateTrig (F : Rounding) (k : ℕ) : Prop :=
  ∀ x : ℝ, (∃ s, F.lib.fn1 "sin" (XR.fin x) = XR.fin s ∧ Near F.u k s (Real.sin x)) ∧
    ∃ c, F.lib.fn1 "cos" (XR.fin x) = XR.fin c ∧ Near F.u k c (Real.cos x)

/-- The rotations by twice the angle `a` about the axes. -/
noncomputable def rotX (a : ℝ) : ℍ[ℝ] := hq (Real.cos a) (Real.sin a) 0 0
/-- About y. -/
noncomputable def rotY (a : ℝ) : ℍ[ℝ] := hq (Real.cos a) 0 (Real.sin a) 0
/-- About z. -/
noncomputable def rotZ (a : ℝ) : ℍ[ℝ] := hq (Real.cos a) 0 0 (Real.sin a)

theorem chord_le (a b : ℝ) : (Real.cos a - Real.cos b) ^ 2 + (Real.sin a - Real.sin b) ^ 2 ≤ (a - b) ^ 2 := by
  have h := Real.one_sub_sq_div_two_le_cos (x := a - b)
  rw [Real.cos_sub] at h
  nlinarith [Real.sin_sq_add_cos_sq a, Real.sin_sq_add_cos_sq b]

theorem rot_lip (a b : ℝ) : ‖rotX a - rotX b‖ ≤ |a - b| ∧ ‖rotY a - rotY b‖ ≤ |a - b| ∧ ‖rotZ a - rotZ b‖ ≤ |a - b| := by
  have h := chord_le a b
  refine ⟨?_, ?_, ?_⟩ <;>
  · refine abs_le_of_sq_le_sq' ?_ (abs_nonneg _) |>.2
    rw [sq_abs, norm_sq_quat]
    simp only [rotX, rotY, rotZ, re_sub, imI_sub, imJ_sub, imK_sub, hq_re, hq_imI, hq_imJ, hq_imK]
    linarith

theorem rot_lip3 (a b c a' b' c' : ℝ) : ‖rotX a * rotY b * rotZ c - rotX a' * rotY b' * rotZ c'‖ ≤ |a - a'| + |b - b'| + |c - c'| := by
  have n1 : ∀ t, ‖rotX t‖ = 1 := fun t => (norm_hq_cs t).1
  have n2 : ∀ t, ‖rotY t‖ = 1 := fun t => (norm_hq_cs t).2.1
  have n3 : ∀ t, ‖rotZ t‖ = 1 := fun t => (norm_hq_cs t).2.2
  have e : rotX a * rotY b * rotZ c - rotX a' * rotY b' * rotZ c' =
      (rotX a - rotX a') * rotY b * rotZ c + rotX a' * (rotY b - rotY b') * rotZ c + rotX a' * rotY b' * (rotZ c - rotZ c') := by
    noncomm_ring
  rw [e]
  have := norm_add₃_le (a := (rotX a - rotX a') * rotY b * rotZ c) (b := rotX a' * (rotY b - rotY b') * rotZ c)
    (c := rotX a' * rotY b' * (rotZ c - rotZ c'))
  simp only [norm_mul, n1, n2, n3, mul_one, one_mul] at this
  linarith [(rot_lip a a').1, (rot_lip b b').2.1, (rot_lip c c').2.2]

/-- Half of an angle, as computed. -/
theorem half_F (x : ℝ) : ∃ h : ℝ, FX.of F x * (lit 0.5 : FX F) = FX.of F h ∧ |h - x / 2| ≤ gam F.u 2 * (|x| / 2) := by
  refine ⟨F.rnd (x * F.rnd (1 / 2)), ?_, ?_⟩
  · rw [FX.lit_eq, FX.of_mul]
    norm_num
  · have h := (((Near.refl F (k := 0) x).mul F (F.near (1 / 2))).rnd F).err F
    rw [show x * (1 / 2) = x / 2 by ring, abs_div, abs_two] at h
    exact h

theorem sin_F {k : ℕ} (ht : AccurateTrig F k) (x : ℝ) : ∃ s, CReal.sin (FX.of F x) = FX.of F s ∧ Near F.u k s (Real.sin x) := by
  obtain ⟨s, h1, h2⟩ := (ht x).1
  refine ⟨s, ?_, h2⟩
  change (⟨F.lib.fn1 "sin" (XR.fin x)⟩ : FX F) = _
  rw [h1]
  rfl

theorem cos_F {k : ℕ} (ht : AccurateTrig F k) (x : ℝ) : ∃ s, CReal.cos (FX.of F x) = FX.of F s ∧ Near F.u k s (Real.cos x) := by
  obtain ⟨s, h1, h2⟩ := (ht x).2
  refine ⟨s, ?_, h2⟩
  change (⟨F.lib.fn1 "cos" (XR.fin x)⟩ : FX F) = _
  rw [h1]
  rfl

/-- C165. `zsl_quat_from_euler` in floating point, with a sine and a cosine accurate up to `k` roundings: the stored quaternion is off the exact
product of the three rotations by at most one and a half times `3 k + 3` roundings, and two roundings of half the angles. -/
theorem quat_from_euler_rounding (F : Rounding) (k : ℕ) (ht : AccurateTrig F k) (x y z : ℝ) :
    ∃ c : ℍ[ℝ], quatFromEuler ⟨FX.of F x, FX.of F y, FX.of F z⟩ = qF F c ∧
      ‖c - hq (Real.cos (x / 2)) (Real.sin (x / 2)) 0 0 * hq (Real.cos (y / 2)) 0 (Real.sin (y / 2)) 0 *
        hq (Real.cos (z / 2)) 0 0 (Real.sin (z / 2))‖ ≤ 3 / 2 * gam F.u (3 * k + 3) + gam F.u 2 * ((|x| + |y| + |z|) / 2) := by
  obtain ⟨hx, ex, bx⟩ := half_F (F := F) x
  obtain ⟨hy, ey, b_y⟩ := half_F (F := F) y
  obtain ⟨hz, ez, bz⟩ := half_F (F := F) z
  obtain ⟨rs, e1, a1⟩ := sin_F ht hx
  obtain ⟨rc, e2, a2⟩ := cos_F ht hx
  obtain ⟨ps, e3, a3⟩ := sin_F ht hy
  obtain ⟨pc, e4, a4⟩ := cos_F ht hy
  obtain ⟨ys, e5, a5⟩ := sin_F ht hz
  obtain ⟨yc, e6, a6⟩ := cos_F ht hz
  set c : ℍ[ℝ] := hq (F.rnd (F.rnd (F.rnd (rc * pc) * yc) - F.rnd (F.rnd (rs * ps) * ys))) (F.rnd (F.rnd (F.rnd (rs * pc) * yc) + F.rnd (F.rnd (rc * ps) * ys)))
    (F.rnd (F.rnd (F.rnd (rc * ps) * yc) - F.rnd (F.rnd (rs * pc) * ys))) (F.rnd (F.rnd (F.rnd (rc * pc) * ys) + F.rnd (F.rnd (rs * ps) * yc))) with hc
  refine ⟨c, ?_, ?_⟩
  · unfold quatFromEuler
    simp only [ex, ey, ez, e1, e2, e3, e4, e5, e6, FX.of_mul, FX.of_sub, FX.of_add]
    rfl
  have tri : ∀ {a b d a' b' d' : ℝ}, Near F.u k a a' → Near F.u k b b' → Near F.u k d d' →
      Err F.u (3 * k + 2) (F.rnd (F.rnd (a * b) * d)) (a' * b' * d') (|a'| * |b'| * |d'|) := by
    intro a b d a' b' d' h1 h2 h3
    exact (((h1.toErr.mul h2.toErr).rnd.mul h3.toErr).rnd).mono (by omega)
  set p : ℍ[ℝ] := hq (|Real.cos hx| * |Real.cos hy| * |Real.cos hz| + |Real.sin hx| * |Real.sin hy| * |Real.sin hz|)
    (|Real.sin hx| * |Real.cos hy| * |Real.cos hz| + |Real.cos hx| * |Real.sin hy| * |Real.sin hz|)
    (|Real.cos hx| * |Real.sin hy| * |Real.cos hz| + |Real.sin hx| * |Real.cos hy| * |Real.sin hz|)
    (|Real.cos hx| * |Real.cos hy| * |Real.sin hz| + |Real.sin hx| * |Real.sin hy| * |Real.cos hz|) with hp
  have hE : ErrQ F (3 * k + 3) c (rotX hx * rotY hy * rotZ hz) p := by
    refine ⟨?_, ?_, ?_, ?_⟩
    · refine ((tri a2 a4 a6).sub (tri a1 a3 a5)).rnd.congr ?_ rfl
      simp [rotX, rotY, rotZ, re_mul, imI_mul, imJ_mul, imK_mul]
    · refine ((tri a1 a4 a6).add (tri a2 a3 a5)).rnd.congr ?_ rfl
      simp [rotX, rotY, rotZ, re_mul, imI_mul, imJ_mul, imK_mul]
    · refine ((tri a2 a3 a6).sub (tri a1 a4 a5)).rnd.congr ?_ rfl
      simp [rotX, rotY, rotZ, re_mul, imI_mul, imJ_mul, imK_mul]
      ring
    · refine ((tri a2 a4 a5).add (tri a1 a3 a6)).rnd.congr ?_ rfl
      simp [rotX, rotY, rotZ, re_mul, imI_mul, imJ_mul, imK_mul]
  have hpn : ‖p‖ ≤ 3 / 2 := by
    refine abs_le_of_sq_le_sq' ?_ (by norm_num) |>.2
    rw [norm_sq_quat]
    simp only [hp, hq_re, hq_imI, hq_imJ, hq_imK]
    have s1 := Real.sin_sq_add_cos_sq hx
    have s2 := Real.sin_sq_add_cos_sq hy
    have s3 := Real.sin_sq_add_cos_sq hz
    rw [← sq_abs (Real.sin hx), ← sq_abs (Real.cos hx)] at s1
    rw [← sq_abs (Real.sin hy), ← sq_abs (Real.cos hy)] at s2
    rw [← sq_abs (Real.sin hz), ← sq_abs (Real.cos hz)] at s3
    generalize |Real.sin hx| = A at *
    generalize |Real.cos hx| = B at *
    generalize |Real.sin hy| = C at *
    generalize |Real.cos hy| = D at *
    generalize |Real.sin hz| = G at *
    generalize |Real.cos hz| = H at *
    have key : (A ^ 2 + B ^ 2) * (C ^ 2 + D ^ 2) * (G ^ 2 + H ^ 2) = 1 := by rw [s1, s2, s3]; norm_num
    have q1 : ∀ u v : ℝ, (u + v) ^ 2 ≤ 2 * u ^ 2 + 2 * v ^ 2 := fun u v => by nlinarith [sq_nonneg (u - v)]
    have := q1 (B * D * H) (A * C * G)
    have := q1 (A * D * H) (B * C * G)
    have := q1 (B * C * H) (A * D * G)
    have := q1 (B * D * G) (A * C * H)
    nlinarith
  have h1 := hE.norm
  have hg := gam_nonneg F.u_nonneg F.u_lt (3 * k + 3)
  have h2 := rot_lip3 hx hy hz (x / 2) (y / 2) (z / 2)
  have h3 := norm_sub_le_norm_sub_add_norm_sub c (rotX hx * rotY hy * rotZ hz) (rotX (x / 2) * rotY (y / 2) * rotZ (z / 2))
  have h4 := mul_le_mul_of_nonneg_left hpn hg
  change ‖c - rotX (x / 2) * rotY (y / 2) * rotZ (z / 2)‖ ≤ _
  linarith

/-- C165. So the length of the quaternion of any Euler angles is one up to that error. -/
theorem quat_from_euler_unit_rounding (F : Rounding) (k : ℕ) (ht : AccurateTrig F k) (x y z : ℝ) :
    ∃ c : ℍ[ℝ], quatFromEuler ⟨FX.of F x, FX.of F y, FX.of F z⟩ = qF F c ∧
      |‖c‖ - 1| ≤ 3 / 2 * gam F.u (3 * k + 3) + gam F.u 2 * ((|x| + |y| + |z|) / 2) := by
  obtain ⟨c, e, h⟩ := quat_from_euler_rounding F k ht x y z
  refine ⟨c, e, ?_⟩
  have h1 := abs_norm_sub_norm_le c (hq (Real.cos (x / 2)) (Real.sin (x / 2)) 0 0 * hq (Real.cos (y / 2)) 0 (Real.sin (y / 2)) 0 *
        hq (Real.cos (z / 2)) 0 0 (Real.sin (z / 2)))
  rw [norm_mul, norm_mul, (norm_hq_cs _).1, (norm_hq_cs _).2.1, (norm_hq_cs _).2.2, one_mul, one_mul] at h1
  exact h1.trans h

/-- The length of an axis, as computed. -/
theorem axis_len_F (a b c : ℝ) : ∃ m : ℝ, CReal.sqrt (FX.of F a * FX.of F a + FX.of F b * FX.of F b + FX.of F c * FX.of F c) = FX.of F m ∧
    Near F.u 4 m (Real.sqrt (a * a + b * b + c * c)) := by
  have sq : ∀ x, Near F.u 1 (F.rnd (x * x)) (x * x) := fun x => F.near _
  have h1 := (((sq a).add_nonneg F (sq b) (mul_self_nonneg a) (mul_self_nonneg b)).rnd F)
  have h2 := ((h1.add_nonneg F ((sq c).mono' F (by omega)) (add_nonneg (mul_self_nonneg _) (mul_self_nonneg _)) (mul_self_nonneg c)).rnd F)
  have h0 : 0 ≤ a * a + b * b + c * c := add_nonneg (add_nonneg (mul_self_nonneg _) (mul_self_nonneg _)) (mul_self_nonneg _)
  refine ⟨_, ?_, (h2.sqrt F h0).rnd F⟩
  simp only [FX.of_mul, FX.of_add]
  rw [FX.of_sqrt (h2.nonneg F h0)]

/-- C165. `zsl_quat_from_axis_angle` in floating point: for an axis `w` (a pure quaternion) longer than `2e-6` and any angle, the stored quaternion is off
`cos (b/2) + sin (b/2) w/|w|` by at most `k + 6` roundings and two roundings of half the angle. -/
theorem quat_from_axis_angle_rounding (F : Rounding) (hu : F.u ≤ 1 / 16) (k : ℕ) (ht : AccurateTrig F k) (junk : ℕ → FX F) (w : ℍ[ℝ]) (hw : w.re = 0)
    (hl : 2e-6 ≤ ‖w‖) (b : ℝ) (q0 : Quat (FX F)) :
    ∃ c : ℍ[ℝ], quatFromAxisAngle junk (gyroF F w) (FX.of F b) q0 = ok (0, qF F c) ∧
      ‖c - ((Real.cos (b / 2) : ℝ) + Real.sin (b / 2) • qdir w)‖ ≤ gam F.u (k + 6) + gam F.u 2 * (|b| / 2) := by
  have hw0 : w ≠ 0 := norm_pos_iff.1 (by linarith)
  have hwn : Real.sqrt (w.imI * w.imI + w.imJ * w.imJ + w.imK * w.imK) = ‖w‖ := by
    rw [norm_quat, hw]
    congr 1
    ring
  obtain ⟨m, em, hm⟩ := axis_len_F (F := F) w.imI w.imJ w.imK
  rw [hwn] at hm
  have hm0 := hm.ne_zero F (by linarith : ‖w‖ ≠ 0)
  have hmb := magn_passes hu (hm.mono' F (by omega)) hl
  -- half of the angle
  obtain ⟨h, eh, bh⟩ : ∃ h : ℝ, FX.of F b / (lit 2 : FX F) = FX.of F h ∧ |h - b / 2| ≤ gam F.u 2 * (|b| / 2) := by
    have h2 : F.rnd 2 ≠ 0 := (F.rnd_pos (by norm_num)).ne'
    refine ⟨F.rnd (b / F.rnd 2), ?_, ?_⟩
    · rw [FX.lit_eq, Rat.cast_ofNat, FX.of_div h2]
    · have := (((Near.refl F (k := 0) b).div F (F.near 2)).rnd F).err F
      rwa [abs_div, abs_two] at this
  obtain ⟨s, es, as⟩ := sin_F ht h
  obtain ⟨cc, ec, ac⟩ := cos_F ht h
  set c : ℍ[ℝ] := hq cc (F.rnd (F.rnd (w.imI / m) * s)) (F.rnd (F.rnd (w.imJ / m) * s)) (F.rnd (F.rnd (w.imK / m) * s)) with hc
  refine ⟨c, ?_, ?_⟩
  · unfold quatFromAxisAngle
    have hcopy : vecCopy (Vec.uninit junk 3) (gyroF F w) = ok (0, gyroF F w) := by
      rw [vec_copy_correct _ _ (by simp [gyroF, Vec.WF]) (by simp [gyroF, Vec.uninit])]
      simp [gyroF, Vec.uninit, Vec.vals]
    have hdiv : vecScalarDiv (gyroF F w) (FX.of F m) =
        ok (0, ⟨3, [FX.of F (F.rnd (w.imI / m)), FX.of F (F.rnd (w.imJ / m)), FX.of F (F.rnd (w.imK / m))]⟩) := by
      rw [vec_scalar_div_correct _ _ (by simp [gyroF, Vec.WF]), if_neg]
      · simp [gyroF, Vec.vals, FX.of_div hm0]
      · rw [FX.lit_eq, Rat.cast_zero, F.rnd_zero, FX.of_eq]
        exact hm0
    rw [if_neg (by simp [gyroF])]
    have hr : rd (gyroF F w).data 0 = ok (FX.of F w.imI) ∧ rd (gyroF F w).data 1 = ok (FX.of F w.imJ) ∧ rd (gyroF F w).data 2 = ok (FX.of F w.imK) :=
      ⟨rfl, rfl, rfl⟩
    rw [hr.1, hr.2.1, hr.2.2]
    simp only [ok_bind]
    rw [em, if_neg (by rw [FX.lit_eq, FX.of_lt]; norm_num at hmb ⊢; exact hmb), hcopy]
    simp only [ok_bind]
    rw [hdiv]
    simp only [ok_bind, rd, List.getElem?_cons_zero, List.getElem?_cons_succ, pure_eq]
    rw [eh, es, ec]
    rfl
  have hcomp : ∀ x : ℝ, Err F.u (k + 6) (F.rnd (F.rnd (x / m) * s)) (Real.sin h * (‖w‖⁻¹ * x)) |Real.sin h * (‖w‖⁻¹ * x)| := by
    intro x
    have h1 := ((((Near.refl F (k := 0) x).div F hm).rnd F).mul F as).rnd F
    have h2 := (h1.toErr).mono (show 0 + 4 + 1 + k + 1 ≤ k + 6 by omega)
    rwa [show x / ‖w‖ * Real.sin h = Real.sin h * (‖w‖⁻¹ * x) by rw [div_eq_inv_mul]; ring] at h2
  set e : ℝ → ℍ[ℝ] := fun t => (Real.cos t : ℝ) + Real.sin t • qdir w with he
  have hqd : (qdir w).re = 0 := by simp [qdir, hw]
  have hn : ∀ t, ‖e t‖ = 1 := by
    intro t
    have h1 : ‖qdir w‖ ^ 2 = 1 := by rw [norm_qdir hw0, one_pow]
    have h2 : ‖e t‖ ^ 2 = 1 := by
      rw [norm_sq_quat] at h1 ⊢
      rw [hqd] at h1
      simp only [he, re_add, imI_add, imJ_add, imK_add, re_smul, imI_smul, imJ_smul, imK_smul, re_coe, imI_coe, imJ_coe, imK_coe, smul_eq_mul, hqd]
      have := Real.sin_sq_add_cos_sq t
      linear_combination Real.sin t ^ 2 * h1 + this
    have h3 := norm_nonneg (e t)
    nlinarith
  have hlip : ‖e h - e (b / 2)‖ ≤ |h - b / 2| := by
    refine abs_le_of_sq_le_sq' ?_ (abs_nonneg _) |>.2
    have h1 : ‖qdir w‖ ^ 2 = 1 := by rw [norm_qdir hw0, one_pow]
    have h2 := chord_le h (b / 2)
    rw [sq_abs]
    rw [norm_sq_quat] at h1 ⊢
    rw [hqd] at h1
    simp only [he, re_sub, imI_sub, imJ_sub, imK_sub, re_add, imI_add, imJ_add, imK_add, re_smul, imI_smul, imJ_smul, imK_smul, re_coe, imI_coe, imJ_coe,
      imK_coe, smul_eq_mul, hqd]
    refine le_trans (le_of_eq ?_) h2
    linear_combination (Real.sin h - Real.sin (b / 2)) ^ 2 * h1
  have hE : ErrQ F (k + 6) c (e h) (qabs (e h)) := by
    have a0 : Err F.u (k + 6) cc (Real.cos h) |Real.cos h| := ac.toErr.mono (by omega)
    refine ⟨?_, ?_, ?_, ?_⟩
    · have : (e h).re = Real.cos h := by simp [he, hqd]
      change Err F.u (k + 6) cc (e h).re |(e h).re|
      rwa [this]
    · have : (e h).imI = Real.sin h * (‖w‖⁻¹ * w.imI) := by simp [he, qdir]
      change Err F.u (k + 6) _ (e h).imI |(e h).imI|
      rw [this]
      exact hcomp _
    · have : (e h).imJ = Real.sin h * (‖w‖⁻¹ * w.imJ) := by simp [he, qdir]
      change Err F.u (k + 6) _ (e h).imJ |(e h).imJ|
      rw [this]
      exact hcomp _
    · have : (e h).imK = Real.sin h * (‖w‖⁻¹ * w.imK) := by simp [he, qdir]
      change Err F.u (k + 6) _ (e h).imK |(e h).imK|
      rw [this]
      exact hcomp _
  have h1 := hE.norm
  rw [norm_qabs, hn, mul_one] at h1
  have h3 := norm_sub_le_norm_sub_add_norm_sub c (e h) (e (b / 2))
  change ‖c - e (b / 2)‖ ≤ _
  linarith

/-- Non-vacuity: a library with exact trigonometric functions, in double precision, and an axis that is not normalised. -/
noncomputable def exactTrigLib : Libm where
  fn1 name x := match name, x with
    | "sin", XR.fin r => XR.fin (Real.sin r)
    | "cos", XR.fin r => XR.fin (Real.cos r)
    | _, _ => XR.nan
  atan2 _ _ := XR.nan
  pow _ _ := XR.nan

example : AccurateTrig (nearestRounding 52 exactTrigLib) 1 ∧ (nearestRounding 52 exactTrigLib).u ≤ 1 / 16 ∧ (Verif.hq 0 1 2 3).re = 0 ∧ 2e-6 ≤ ‖Verif.hq 0 1 2 3‖ := by
  refine ⟨fun x => ⟨⟨_, rfl, Near.refl _ _⟩, ⟨_, rfl, Near.refl _ _⟩⟩, ?_, rfl, ?_⟩
  · change ((1 : ℝ) / 2) ^ 53 ≤ 1 / 16
    norm_num
  · rw [norm_quat]
    refine Real.le_sqrt_of_sq_le ?_
    norm_num

/-- C165. In double precision, with functions accurate to one rounding, and for angles up to a full turn: all errors are below `5e-15`. -/
theorem quat_from_angles_double (lib : Libm) :
    3 / 2 * gam (nearestRounding 52 lib).u (3 * 1 + 3) + gam (nearestRounding 52 lib).u 2 * ((2 * 3.15 + 2 * 3.15 + 2 * 3.15) / 2) ≤ 5e-15 ∧
    gam (nearestRounding 52 lib).u (1 + 6) + gam (nearestRounding 52 lib).u 2 * (2 * 3.15 / 2) ≤ 5e-15 := by
  have : (nearestRounding 52 lib).u = (1 / 2) ^ 53 := rfl
  rw [this]
  unfold gam
  norm_num

end Verif
