import Verif.Model.Quaternions
import Verif.Model.Interp
import Verif.Props.Round1

/-!
# Rounding errors of quaternions and interpolation (C126, C127)
-/

namespace Verif

open Out

/-- A quaternion of finite numbers. -/
def quatF (F : Rounding) (a b c d : ℝ) : Quat (FX F) := ⟨FX.of F a, FX.of F b, FX.of F c, FX.of F d⟩

/-- The length of a quaternion, from its components. -/
noncomputable def qlen (a b c d : ℝ) : ℝ := Real.sqrt (a * a + b * b + c * c + d * d)

theorem quatMagn_F (F : Rounding) (a b c d : ℝ) : ∃ m : ℝ, quatMagn (quatF F a b c d) = FX.of F m ∧ Near F.u 5 m (qlen a b c d) := by
  have sq : ∀ x, Near F.u 1 (F.rnd (x * x)) (x * x) := fun x => F.near _
  have h1 := (((sq a).add_nonneg F (sq b) (mul_self_nonneg a) (mul_self_nonneg b)).rnd F)
  have h2 := ((h1.add_nonneg F ((sq c).mono' F (by omega)) (add_nonneg (mul_self_nonneg _) (mul_self_nonneg _)) (mul_self_nonneg c)).rnd F)
  have h3 := ((h2.add_nonneg F ((sq d).mono' F (by omega)) (add_nonneg (add_nonneg (mul_self_nonneg _) (mul_self_nonneg _)) (mul_self_nonneg _)) (mul_self_nonneg d)).rnd F)
  have h0 : 0 ≤ a * a + b * b + c * c + d * d := add_nonneg (add_nonneg (add_nonneg (mul_self_nonneg _) (mul_self_nonneg _)) (mul_self_nonneg _)) (mul_self_nonneg _)
  refine ⟨_, ?_, (h3.sqrt F h0).rnd F⟩
  unfold quatMagn quatF
  simp only [FX.of_mul, FX.of_add]
  rw [FX.of_sqrt (h3.nonneg F h0)]

/-- C126. The magnitude of a quaternion is right up to five roundings. -/
theorem quat_magn_rounding (F : Rounding) (a b c d : ℝ) :
    ∃ m : ℝ, quatMagn (quatF F a b c d) = FX.of F m ∧ |m - qlen a b c d| ≤ gam F.u 5 * qlen a b c d := by
  obtain ⟨m, e, h⟩ := quatMagn_F F a b c d
  refine ⟨m, e, ?_⟩
  have := h.err F
  rwa [abs_of_nonneg (show 0 ≤ qlen a b c d from Real.sqrt_nonneg _)] at this

theorem gam_small {u : ℝ} (h1 : u ≤ 1 / 16) : (1 / 2 : ℝ) ≤ (1 - u) ^ 6 := by
  calc (1 / 2 : ℝ) ≤ (15 / 16) ^ 6 := by norm_num
    _ ≤ (1 - u) ^ 6 := pow_le_pow_left₀ (by norm_num) (by linarith) 6

/-- C126. A quaternion which is not tiny is made a unit quaternion: every component is right up to six roundings, and the squared length is one
up to twelve roundings. -/
theorem quat_to_unit_rounding (F : Rounding) (hu : F.u ≤ 1 / 16) (a b c d : ℝ) (h : 2e-6 ≤ qlen a b c d) :
    ∃ a' b' c' d' : ℝ, quatToUnit (quatF F a b c d) = quatF F a' b' c' d' ∧ Near F.u 6 a' (a / qlen a b c d) ∧ Near F.u 6 b' (b / qlen a b c d) ∧
      Near F.u 6 c' (c / qlen a b c d) ∧ Near F.u 6 d' (d / qlen a b c d) ∧ Near F.u 12 (a' * a' + b' * b' + c' * c' + d' * d') 1 := by
  obtain ⟨m, e, hm⟩ := quatMagn_F F a b c d
  have hq : 0 < qlen a b c d := lt_of_lt_of_le (by norm_num) h
  have hm0 := hm.pos F hq
  have hbig : F.rnd (1e-6 : ℝ) ≤ m := by
    obtain ⟨s, hs, es⟩ := F.near (1e-6 : ℝ)
    obtain ⟨t, ht, et⟩ := hm
    have hst := (hs.inv F.u_nonneg F.u_lt).mul' F ht
    have hsp := hs.pos F.u_nonneg F.u_lt
    have h6 : (1 / 2 : ℝ) ≤ s⁻¹ * t := (gam_small hu).trans hst.1
    have h7 : s / 2 ≤ t := by
      have := mul_le_mul_of_nonneg_left h6 hsp.le
      rw [mul_inv_cancel_left₀ hsp.ne'] at this
      linarith
    rw [es, et]
    nlinarith
  have hd : ∀ x, Near F.u 6 (F.rnd (x / m)) (x / qlen a b c d) := fun x =>
    (Near.mono' F (((Near.refl F (k := 0) x).div F hm).rnd F) (by omega))
  refine ⟨F.rnd (a / m), F.rnd (b / m), F.rnd (c / m), F.rnd (d / m), ?_, hd a, hd b, hd c, hd d, ?_⟩
  · unfold quatToUnit
    rw [e]
    dsimp only
    rw [FX.of_abs, FX.lit_eq, if_neg (by simp only [FX.of_lt, not_lt, abs_of_pos hm0]; exact_mod_cast hbig)]
    unfold quatF
    dsimp only
    rw [FX.of_div hm0.ne', FX.of_div hm0.ne', FX.of_div hm0.ne', FX.of_div hm0.ne']
  · have hsq : ∀ x, Near F.u 12 (F.rnd (x / m) * F.rnd (x / m)) (x / qlen a b c d * (x / qlen a b c d)) := fun x => (hd x).mul F (hd x)
    have hs := (((hsq a).add_nonneg F (hsq b) (mul_self_nonneg _) (mul_self_nonneg _)).add_nonneg F (hsq c) (add_nonneg (mul_self_nonneg _) (mul_self_nonneg _))
      (mul_self_nonneg _)).add_nonneg F (hsq d) (add_nonneg (add_nonneg (mul_self_nonneg _) (mul_self_nonneg _)) (mul_self_nonneg _)) (mul_self_nonneg _)
    convert hs using 1
    have : qlen a b c d * qlen a b c d = a * a + b * b + c * c + d * d := Real.mul_self_sqrt (add_nonneg (add_nonneg (add_nonneg (mul_self_nonneg _) (mul_self_nonneg _)) (mul_self_nonneg _)) (mul_self_nonneg _))
    field_simp
    rw [pow_two, this]
    ring

/-- The error of a sum of four products, in any order of signs. -/
theorem four_products (F : Rounding) (p q r s : ℝ) (e1 e2 e3 : ℝ) (h1 : e1 = 1 ∨ e1 = -1) (h2 : e2 = 1 ∨ e2 = -1) (h3 : e3 = 1 ∨ e3 = -1) :
    |F.rnd (F.rnd (F.rnd (F.rnd p + e1 * F.rnd q) + e2 * F.rnd r) + e3 * F.rnd s) - (p + e1 * q + e2 * r + e3 * s)| ≤
      gam F.u 4 * (|p| + |q| + |r| + |s|) := by
  have hu0 := F.u_nonneg
  have hu1 := F.u_lt
  obtain ⟨tp, hp, ep⟩ := F.near p
  obtain ⟨tq, hq, eq⟩ := F.near q
  obtain ⟨tr, hr, er⟩ := F.near r
  obtain ⟨ts, hs, es⟩ := F.near s
  obtain ⟨t1, ht1, f1⟩ := F.near (F.rnd p + e1 * F.rnd q)
  obtain ⟨t2, ht2, f2⟩ := F.near (F.rnd (F.rnd p + e1 * F.rnd q) + e2 * F.rnd r)
  obtain ⟨t3, ht3, f3⟩ := F.near (F.rnd (F.rnd (F.rnd p + e1 * F.rnd q) + e2 * F.rnd r) + e3 * F.rnd s)
  rw [f3, f2, f1, ep, eq, er, es]
  have := sum_close_err hu0 hu1 (k := 4) ![p, e1 * q, e2 * r, e3 * s] ![tp * t1 * t2 * t3, tq * t1 * t2 * t3, tr * t2 * t3, ts * t3] (by
    intro i
    fin_cases i
    · exact ((hp.mul' F ht1).mul' F ht2).mul' F ht3
    · exact ((hq.mul' F ht1).mul' F ht2).mul' F ht3
    · exact ((hr.mul' F ht2).mul' F ht3).mono hu0 hu1 (by omega)
    · exact (hs.mul' F ht3).mono hu0 hu1 (by omega))
  have a1 : |e1 * q| = |q| := by rcases h1 with rfl | rfl <;> simp
  have a2 : |e2 * r| = |r| := by rcases h2 with rfl | rfl <;> simp
  have a3 : |e3 * s| = |s| := by rcases h3 with rfl | rfl <;> simp
  simp only [Fin.sum_univ_four] at this
  simp only [Matrix.cons_val_zero, Matrix.cons_val_one, Matrix.cons_val] at this
  rw [a1, a2, a3] at this
  convert this using 2
  ring_nf

/-- C126. The product of two quaternions is wrong by at most four roundings of the sum of the absolute products, in every component. -/
theorem quat_mult_rounding (F : Rounding) (a b c d a' b' c' d' : ℝ) :
    ∃ p q r s : ℝ, quatMult (quatF F a b c d) (quatF F a' b' c' d') = quatF F p q r s ∧
      |p - (a * a' - b * b' - c * c' - d * d')| ≤ gam F.u 4 * (|a * a'| + |b * b'| + |c * c'| + |d * d'|) ∧
      |q - (a * b' + b * a' + c * d' - d * c')| ≤ gam F.u 4 * (|a * b'| + |b * a'| + |c * d'| + |d * c'|) ∧
      |r - (a * c' - b * d' + c * a' + d * b')| ≤ gam F.u 4 * (|a * c'| + |b * d'| + |c * a'| + |d * b'|) ∧
      |s - (a * d' + b * c' - c * b' + d * a')| ≤ gam F.u 4 * (|a * d'| + |b * c'| + |c * b'| + |d * a'|) := by
  refine ⟨_, _, _, _, rfl, ?_, ?_, ?_, ?_⟩
  · have := four_products F (a * a') (b * b') (c * c') (d * d') (-1) (-1) (-1) (by simp) (by simp) (by simp)
    simpa only [neg_one_mul, ← sub_eq_add_neg] using this
  · have := four_products F (a * b') (b * a') (c * d') (d * c') 1 1 (-1) (by simp) (by simp) (by simp)
    simpa only [neg_one_mul, one_mul, ← sub_eq_add_neg] using this
  · have := four_products F (a * c') (b * d') (c * a') (d * b') (-1) 1 1 (by simp) (by simp) (by simp)
    simpa only [neg_one_mul, one_mul, ← sub_eq_add_neg] using this
  · have := four_products F (a * d') (b * c') (c * b') (d * a') 1 (-1) 1 (by simp) (by simp) (by simp)
    simpa only [neg_one_mul, one_mul, ← sub_eq_add_neg] using this

/-! ## Interpolation -/

/-- A table point of finite numbers. -/
def ptF (F : Rounding) (x y : ℝ) : XY (FX F) := ⟨FX.of F x, FX.of F y⟩

/-- What the code computes between two points. -/
noncomputable def linF (F : Rounding) (x1 y1 x3 y3 x : ℝ) : ℝ :=
  F.rnd (F.rnd (F.rnd (F.rnd (x - x1) * F.rnd (y3 - y1)) / F.rnd (x3 - x1)) + y1)

theorem interpLinY_F (F : Rounding) (x1 y1 x3 y3 x : ℝ) (hd : F.rnd 1e-6 ≤ F.rnd (x3 - x1)) (h1 : x1 ≤ x) (h3 : x ≤ x3) :
    interpLinY (ptF F x1 y1) (ptF F x3 y3) (FX.of F x) = (0, FX.of F (linF F x1 y1 x3 y3 x)) := by
  have hpos : 0 < F.rnd (x3 - x1) := (F.rnd_pos (by norm_num)).trans_le hd
  unfold interpLinY ptF tooClose
  simp only [FX.of_sub, FX.lit_eq, FX.of_neg]
  rw [if_neg (by
    simp only [Bool.and_eq_true, FX.of_lt, not_and, not_lt]
    intro h
    exact absurd h (not_lt.2 (by exact_mod_cast hd))), if_neg (by simp [h1, h3])]
  simp only [FX.of_mul]
  rw [FX.of_div hpos.ne', FX.of_add]
  rfl

/-- C127. `zsl_interp_lin_y` with rounding: it returns the first ordinate exactly at the first abscissa, grows with the abscissa on a rising chord,
and falls on a falling one. -/
theorem interp_lin_y_monotone_rounding (F : Rounding) (x1 y1 x3 y3 : ℝ) (hy1 : F.rnd y1 = y1) (hd : F.rnd 1e-6 ≤ F.rnd (x3 - x1)) :
    (x1 ≤ x3 → interpLinY (ptF F x1 y1) (ptF F x3 y3) (FX.of F x1) = (0, FX.of F y1)) ∧
    ∀ x x', x1 ≤ x → x ≤ x' → x' ≤ x3 → ∃ y y' : ℝ, interpLinY (ptF F x1 y1) (ptF F x3 y3) (FX.of F x) = (0, FX.of F y) ∧
      interpLinY (ptF F x1 y1) (ptF F x3 y3) (FX.of F x') = (0, FX.of F y') ∧ (y1 ≤ y3 → y1 ≤ y ∧ y ≤ y') ∧ (y3 ≤ y1 → y ≤ y1 ∧ y' ≤ y) := by
  have hpos : 0 < F.rnd (x3 - x1) := (F.rnd_pos (by norm_num)).trans_le hd
  have h0 : linF F x1 y1 x3 y3 x1 = y1 := by simp [linF, F.rnd_zero, hy1]
  have hup : y1 ≤ y3 → ∀ x x', x ≤ x' → linF F x1 y1 x3 y3 x ≤ linF F x1 y1 x3 y3 x' := by
    intro hy x x' hx
    refine F.mono (add_le_add_left (F.mono (div_le_div_of_nonneg_right (F.mono ?_) hpos.le)) y1)
    exact mul_le_mul_of_nonneg_right (F.mono (by linarith)) (F.rnd_nonneg (by linarith))
  have hdn : y3 ≤ y1 → ∀ x x', x ≤ x' → linF F x1 y1 x3 y3 x' ≤ linF F x1 y1 x3 y3 x := by
    intro hy x x' hx
    refine F.mono (add_le_add_left (F.mono (div_le_div_of_nonneg_right (F.mono ?_) hpos.le)) y1)
    exact mul_le_mul_of_nonpos_right (F.mono (by linarith)) (F.rnd_nonpos (by linarith))
  refine ⟨fun h13 => by rw [interpLinY_F F x1 y1 x3 y3 x1 hd le_rfl h13, h0], fun x x' hx hxx hx3 => ?_⟩
  refine ⟨_, _, interpLinY_F F x1 y1 x3 y3 x hd hx (by linarith), interpLinY_F F x1 y1 x3 y3 x' hd (by linarith) hx3, fun hy => ⟨?_, hup hy _ _ hxx⟩,
    fun hy => ⟨?_, hdn hy _ _ hxx⟩⟩
  · have := hup hy _ _ hx
    rwa [h0] at this
  · have := hdn hy _ _ hx
    rwa [h0] at this

/-- C127. The interpolated value is wrong by at most six roundings of the sizes of the two summands. -/
theorem interp_lin_y_rounding (F : Rounding) (x1 y1 x3 y3 x : ℝ) (hd : F.rnd 1e-6 ≤ F.rnd (x3 - x1)) (h1 : x1 ≤ x) (h3 : x ≤ x3) :
    ∃ y : ℝ, interpLinY (ptF F x1 y1) (ptF F x3 y3) (FX.of F x) = (0, FX.of F y) ∧
      |y - (y1 + (x - x1) * (y3 - y1) / (x3 - x1))| ≤ gam F.u 6 * (|(x - x1) * (y3 - y1) / (x3 - x1)| + |y1|) := by
  refine ⟨_, interpLinY_F F x1 y1 x3 y3 x hd h1 h3, ?_⟩
  have hn : Near F.u 5 (F.rnd (F.rnd (F.rnd (x - x1) * F.rnd (y3 - y1)) / F.rnd (x3 - x1))) ((x - x1) * (y3 - y1) / (x3 - x1)) :=
    (((((F.near (x - x1)).mul F (F.near (y3 - y1))).rnd F).div F (F.near (x3 - x1))).rnd F)
  obtain ⟨t, ht, et⟩ := hn
  obtain ⟨s, hs, es⟩ := F.near ((x - x1) * (y3 - y1) / (x3 - x1) * t + y1)
  rw [linF, et, es]
  have := sum_close_err F.u_nonneg F.u_lt (k := 6) ![(x - x1) * (y3 - y1) / (x3 - x1), y1] ![t * s, s] (by
    intro i
    fin_cases i
    · exact ht.mul' F hs
    · exact hs.mono F.u_nonneg F.u_lt (by omega))
  simp only [Fin.sum_univ_two, Matrix.cons_val_zero, Matrix.cons_val_one] at this
  convert this using 2
  ring

/-- C127. `zsl_interp_lerp` with rounding: wrong by at most three roundings of the sizes of the two summands, and exact at both ends. -/
theorem interp_lerp_rounding (F : Rounding) (v0 v1 t : ℝ) (h0 : 0 ≤ t) (h1 : t ≤ 1) :
    ∃ y : ℝ, interpLerp (FX.of F v0) (FX.of F v1) (FX.of F t) = (0, FX.of F y) ∧
      |y - ((1 - t) * v0 + t * v1)| ≤ gam F.u 3 * (|(1 - t) * v0| + |t * v1|) ∧
      (t = 0 → F.rnd v0 = v0 → y = v0) ∧ (t = 1 → F.rnd v1 = v1 → y = v1) := by
  refine ⟨F.rnd (F.rnd (F.rnd (1 - t) * v0) + F.rnd (t * v1)), ?_, ?_, ?_, ?_⟩
  · unfold interpLerp
    rw [FX.lit_eq, FX.lit_eq, Rat.cast_zero, Rat.cast_one, F.rnd_zero, F.one, if_neg (by simp [h0, h1])]
    simp
  · have ha : Near F.u 2 (F.rnd (F.rnd (1 - t) * v0)) ((1 - t) * v0) := ((F.near (1 - t)).mul F (Near.refl F (k := 0) v0)).rnd F
    obtain ⟨a, ha, ea⟩ := ha
    obtain ⟨b, hb, eb⟩ := F.near (t * v1)
    obtain ⟨s, hs, es⟩ := F.near ((1 - t) * v0 * a + t * v1 * b)
    rw [ea, eb, es]
    have := sum_close_err F.u_nonneg F.u_lt (k := 3) ![(1 - t) * v0, t * v1] ![a * s, b * s] (by
      intro i
      fin_cases i
      · exact ha.mul' F hs
      · exact (hb.mul' F hs).mono F.u_nonneg F.u_lt (by omega))
    simp only [Fin.sum_univ_two, Matrix.cons_val_zero, Matrix.cons_val_one] at this
    convert this using 2
    ring
  · rintro rfl hv
    simp [F.one, F.rnd_zero, hv]
  · rintro rfl hv
    simp [F.rnd_zero, hv]

/-- Non-vacuity: the hypotheses of the theorems hold in double precision, for a quaternion and for a table with steps of one. -/
example (lib : Libm) : (nearestRounding 52 lib).u ≤ 1 / 16 ∧ 2e-6 ≤ qlen 1 2 3 4 ∧
    (nearestRounding 52 lib).rnd 1e-6 ≤ (nearestRounding 52 lib).rnd (5 - 4) ∧ (nearestRounding 52 lib).rnd 7 = 7 := by
  refine ⟨?_, ?_, (nearestRounding 52 lib).mono (by norm_num), ?_⟩
  · change ((1 : ℝ) / 2) ^ 53 ≤ 1 / 16
    norm_num
  · refine Real.le_sqrt_of_sq_le ?_
    norm_num
  · have := nearest_nat 52 7 (by norm_num)
    exact_mod_cast this

end Verif
