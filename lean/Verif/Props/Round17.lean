import Verif.Props.Round13
import Verif.Props.Round8
import Verif.Lemmas.XRNan

/-!
# SAAM in floating point (C166)
-/

namespace Verif

open Out Quaternion

variable {F : Rounding}

theorem len_sum (v : V3) : len v = Real.sqrt (∑ i, v i ^ 2) := by
  rw [len, dotProduct]
  simp only [pow_two]

/-- The computed dot product of two vectors of three elements. -/
theorem vecDot3_F (a b : V3) (d : FX F) : vecDot (vecF F a []) (vecF F b []) d =
    ok (0, FX.of F (F.rnd (F.rnd (F.rnd (0 + F.rnd (a 0 * b 0)) + F.rnd (a 1 * b 1)) + F.rnd (a 2 * b 2)))) := by
  simp [vecF3, vecDot, forN, rd, F.rnd_zero]

/-- The normalised vector of three elements with a computed norm that is not zero. -/
theorem vecToUnit3_F (a : V3) {r : ℝ} (hr : r ≠ 0) (h : vecNorm (vecF F a []) = ok (FX.of F r)) :
    vecToUnit (vecF F a []) = ok (0, vecF F (fun i => F.rnd (a i * F.rnd (1 / r))) []) := by
  rw [vecToUnit, h, ok_bind, if_pos (by rw [lit0_F, FX.of_ne]; exact hr), lit1_F, FX.of_div hr]
  simp [vecF3, vecScalarMult, forN, rd, wr]

/-- What SAAM does with two unit vectors, with a value of `bx`. -/
noncomputable def saamWith (a m : V3) (bx bz : FX F) : Quat (FX F) :=
  quatToUnit ⟨(-FX.of F (a 1)) * (bx + FX.of F (m 0)) + FX.of F (a 0) * FX.of F (m 1),
    (FX.of F (a 2) - lit 1) * (bx + FX.of F (m 0)) + FX.of F (a 0) * (bz - FX.of F (m 2)),
    (FX.of F (a 2) - lit 1) * FX.of F (m 1) + FX.of F (a 1) * (bz - FX.of F (m 2)),
    FX.of F (a 2) * bz - FX.of F (a 0) * bx - FX.of F (m 2)⟩

theorem saam_run (hu : F.u ≤ 1 / 16) (junk : ℕ → FX F) (a m : V3) (g : Vec (FX F)) (q : Quat (FX F)) (ha : 2e-6 ≤ len a) (hm : 2e-6 ≤ len m)
    {y z : V3} {d : ℝ} (ey : vecToUnit (vecF F a []) = ok (0, vecF F y [])) (ez : vecToUnit (vecF F m []) = ok (0, vecF F z []))
    (ed : vecDot (vecF F y []) (vecF F z []) (junk 0) = ok (0, FX.of F d)) :
    fusSaamFeed junk ⟨some (vecF F a []), some (vecF F m []), g⟩ q =
      ok (0, ⟨some (vecF F y []), some (vecF F z []), g⟩, saamWith y z (CReal.sqrt (FX.of F (F.rnd (1 - F.rnd (d * d))))) (FX.of F d)) := by
  obtain ⟨na, ena, hna⟩ := vecNorm_F F a []
  obtain ⟨nm, enm, hnm⟩ := vecNorm_F F m []
  have key : ∀ {v : V3} {r : ℝ}, 2e-6 ≤ len v → Near F.u (3 + 1) r (Real.sqrt (∑ i, v i ^ 2)) →
      ¬ CReal.lt (CReal.abs (FX.of F r)) (lit 1e-6 : FX F) = true := by
    intro v r hv h
    rw [FX.of_abs, FX.lit_eq, FX.of_lt, not_lt]
    rw [← len_sum] at h
    have := magn_passes hu (h.mono' F (by norm_num : 3 + 1 ≤ 5)) hv
    refine le_trans ?_ (le_abs_self r)
    rwa [show ((1e-6 : ℚ) : ℝ) = 1e-6 by norm_num]
  unfold fusSaamFeed
  simp only
  rw [if_neg (by simp [vecF, vecOf]), if_neg (by simp [vecF, vecOf]), enm, ok_bind, if_neg (key hm hnm), ena, ok_bind, if_neg (key ha hna), ey, ok_bind]
  simp only
  rw [ez, ok_bind]
  simp only
  rw [ed, ok_bind]
  obtain ⟨r0, r1, r2⟩ := vec3F_rd (F := F) y
  obtain ⟨s0, s1, s2⟩ := vec3F_rd (F := F) z
  rw [r0, r1, r2, s0, s1, s2]
  simp only [ok_bind, pure_eq, lit1_F, FX.of_mul, FX.of_sub, saamWith]

theorem FX.nan_add (x : FX F) : (⟨XR.nan⟩ : FX F) + x = ⟨XR.nan⟩ := by
  change FX.rd F (XR.nan + x.val) = _
  rw [XR.nan_add]; rfl
theorem FX.add_nan (x : FX F) : x + (⟨XR.nan⟩ : FX F) = ⟨XR.nan⟩ := by
  change FX.rd F (x.val + XR.nan) = _
  rw [XR.add_nan]; rfl
theorem FX.nan_sub (x : FX F) : (⟨XR.nan⟩ : FX F) - x = ⟨XR.nan⟩ := by
  change FX.rd F (XR.nan - x.val) = _
  rw [XR.nan_sub]; rfl
theorem FX.sub_nan (x : FX F) : x - (⟨XR.nan⟩ : FX F) = ⟨XR.nan⟩ := by
  change FX.rd F (x.val - XR.nan) = _
  rw [XR.sub_nan]; rfl
theorem FX.mul_nan (x : FX F) : x * (⟨XR.nan⟩ : FX F) = ⟨XR.nan⟩ := by
  change FX.rd F (x.val * XR.nan) = _
  rw [XR.mul_nan]; rfl
theorem FX.div_nan (x : FX F) : x / (⟨XR.nan⟩ : FX F) = ⟨XR.nan⟩ := by
  change FX.rd F (x.val / XR.nan) = _
  rw [XR.div_nan]; rfl

/-- The quaternion all of whose components are NaN. -/
def nanQuat (F : Rounding) : Quat (FX F) := ⟨⟨XR.nan⟩, ⟨XR.nan⟩, ⟨XR.nan⟩, ⟨XR.nan⟩⟩

theorem quatToUnit_nan (x y z w : FX F) (hx : x = ⟨XR.nan⟩) : quatToUnit ⟨x, y, z, w⟩ = nanQuat F := by
  have hm : quatMagn (⟨x, y, z, w⟩ : Quat (FX F)) = ⟨XR.nan⟩ := by
    subst hx
    rw [quatMagn]
    simp only [FX.mul_nan, FX.nan_add]
    rfl
  rw [quatToUnit, hm]
  simp only [FX.div_nan, nanQuat]
  rw [if_neg]
  change ¬ CReal.lt XR.nan _ = true
  rw [XR.nan_lt]
  simp

theorem saamWith_nan (a m : V3) (bz : FX F) : saamWith a m ⟨XR.nan⟩ bz = nanQuat F := by
  rw [saamWith]
  apply quatToUnit_nan
  simp only [FX.nan_add, FX.mul_nan]

/-- Rounding to double precision, of a number in the binade of `2 ^ (- k)`. -/
theorem nearest_binade {x : ℝ} (k : ℕ) (m : ℤ) (h1 : 1 ≤ x * 2 ^ k) (h2 : x * 2 ^ k < 2) (h3 : (m : ℝ) - 1 / 2 ≤ x * 2 ^ (52 + k)) (h4 : x * 2 ^ (52 + k) < m + 1 / 2) :
    nearest 52 x = m / 2 ^ (52 + k) := by
  have hp : (0 : ℝ) < 2 ^ k := by positivity
  rw [nearest_of 52 (L := -(k : ℤ))]
  · have e : ((2 : ℝ) ^ (-(k : ℤ) - (52 : ℕ))) = (2 ^ (52 + k))⁻¹ := by
      rw [← zpow_natCast, ← zpow_neg]
      congr 1
      push_cast
      ring
    rw [e, div_inv_eq_mul]
    have : round (x * 2 ^ (52 + k)) = m := by
      rw [round_eq, Int.floor_eq_iff]
      constructor <;> linarith
    rw [this, div_eq_mul_inv]
  · rw [zpow_neg, zpow_natCast, inv_le_iff_one_le_mul₀ hp]
    exact h1
  · rw [zpow_add₀ (by norm_num), zpow_neg, zpow_natCast, zpow_one, inv_mul_eq_div, lt_div_iff₀ hp]
    exact h2

/-- C166. The two readings must not be parallel: in double precision the readings `a = m = (0, 3, 4)`, whose numbers and norms are exact, make `zsl_fus_saam_feed`
return 0 with an attitude of four NaNs. The computed dot product of the two normalised readings is larger than one, so the root of a negative number is taken. -/
theorem saam_parallel_nan (lib : Libm) (junk : ℕ → FX (nearestRounding 52 lib)) (g : Vec (FX (nearestRounding 52 lib))) (q : Quat (FX (nearestRounding 52 lib))) :
    ∃ s, fusSaamFeed junk ⟨some (vecF _ ![0, 3, 4] []), some (vecF _ ![0, 3, 4] []), g⟩ q = ok (0, s, nanQuat (nearestRounding 52 lib)) := by
  have R : (nearestRounding 52 lib).rnd = nearest 52 := rfl
  have n9 : nearest 52 9 = 9 := by exact_mod_cast nearest_nat 52 9 (by norm_num)
  have n16 : nearest 52 16 = 16 := by exact_mod_cast nearest_nat 52 16 (by norm_num)
  have n25 : nearest 52 25 = 25 := by exact_mod_cast nearest_nat 52 25 (by norm_num)
  have n5 : nearest 52 5 = 5 := by exact_mod_cast nearest_nat 52 5 (by norm_num)
  have hn : vecNorm (vecF (nearestRounding 52 lib) ![0, 3, 4] []) = ok (FX.of _ 5) := by
    rw [vecNorm, vecSumOfSqrs, vecDot3_F, ok_bind]
    have e : nearest 52 (nearest 52 (nearest 52 (0 + nearest 52 ((![0, 3, 4] : V3) 0 * (![0, 3, 4] : V3) 0)) + nearest 52 ((![0, 3, 4] : V3) 1 * (![0, 3, 4] : V3) 1)) +
        nearest 52 ((![0, 3, 4] : V3) 2 * (![0, 3, 4] : V3) 2)) = 25 := by
      simp only [Matrix.cons_val_zero, Matrix.cons_val_one, Matrix.cons_val]
      norm_num [nearest_zero, n9, n16, n25]
    simp only [pure_eq, ok_bind, R]
    rw [e, FX.of_sqrt (by norm_num), R, show (25 : ℝ) = 5 ^ 2 by norm_num, Real.sqrt_sq (by norm_num), n5]
  have e1 := vecToUnit3_F (F := nearestRounding 52 lib) ![0, 3, 4] (by norm_num) hn
  have hu : nearest 52 (1 / 5) = 7205759403792794 / 2 ^ 55 := nearest_binade 3 7205759403792794 (by norm_num) (by norm_num) (by norm_num) (by norm_num)
  have hb : nearest 52 (3 * (7205759403792794 / 2 ^ 55)) = 5404319552844596 / 2 ^ 53 :=
    nearest_binade 1 5404319552844596 (by norm_num) (by norm_num) (by norm_num) (by norm_num)
  have hc : nearest 52 (4 * (7205759403792794 / 2 ^ 55)) = 7205759403792794 / 2 ^ 53 :=
    nearest_binade 1 7205759403792794 (by norm_num) (by norm_num) (by norm_num) (by norm_num)
  have hv : (fun i => (nearestRounding 52 lib).rnd ((![0, 3, 4] : V3) i * (nearestRounding 52 lib).rnd (1 / 5))) =
      ![0, 5404319552844596 / 2 ^ 53, 7205759403792794 / 2 ^ 53] := by
    ext i
    fin_cases i
    · simp [R, nearest_zero]
    · rw [R, hu]; exact hb
    · rw [R, hu]; exact hc
  rw [hv] at e1
  have hbb : nearest 52 (5404319552844596 / 2 ^ 53 * (5404319552844596 / 2 ^ 53)) = 6485183463413516 / 2 ^ 54 :=
    nearest_binade 2 6485183463413516 (by norm_num) (by norm_num) (by norm_num) (by norm_num)
  have hbi : nearest 52 (6485183463413516 / 2 ^ 54) = 6485183463413516 / 2 ^ 54 :=
    nearest_binade 2 6485183463413516 (by norm_num) (by norm_num) (by norm_num) (by norm_num)
  have hcc : nearest 52 (7205759403792794 / 2 ^ 53 * (7205759403792794 / 2 ^ 53)) = 5764607523034236 / 2 ^ 53 :=
    nearest_binade 1 5764607523034236 (by norm_num) (by norm_num) (by norm_num) (by norm_num)
  have hd : nearest 52 (6485183463413516 / 2 ^ 54 + 5764607523034236 / 2 ^ 53) = 4503599627370497 / 2 ^ 52 :=
    nearest_one_two 4503599627370497 (by norm_num) (by norm_num) (by norm_num) (by norm_num)
  have hdd : nearest 52 (4503599627370497 / 2 ^ 52 * (4503599627370497 / 2 ^ 52)) = 4503599627370498 / 2 ^ 52 :=
    nearest_one_two 4503599627370498 (by norm_num) (by norm_num) (by norm_num) (by norm_num)
  have ed : vecDot (vecF (nearestRounding 52 lib) ![0, 5404319552844596 / 2 ^ 53, 7205759403792794 / 2 ^ 53] [])
      (vecF (nearestRounding 52 lib) ![0, 5404319552844596 / 2 ^ 53, 7205759403792794 / 2 ^ 53] []) (junk 0) = ok (0, FX.of _ (4503599627370497 / 2 ^ 52)) := by
    rw [vecDot3_F, R]
    simp only [Matrix.cons_val_zero, Matrix.cons_val_one, Matrix.cons_val, mul_zero, nearest_zero, add_zero, zero_add, hbb, hbi, hcc, hd]
  have hl : (2e-6 : ℝ) ≤ len ![0, 3, 4] := by
    rw [len]
    refine le_trans (by norm_num) (Real.le_sqrt_of_sq_le (x := 5) ?_)
    norm_num
  have hrun := saam_run (by simp only [nearestRounding]; norm_num) junk _ _ g q hl hl e1 e1 ed
  have hneg : CReal.sqrt (FX.of (nearestRounding 52 lib) ((nearestRounding 52 lib).rnd (1 - (nearestRounding 52 lib).rnd
      (4503599627370497 / 2 ^ 52 * (4503599627370497 / 2 ^ 52))))) = ⟨XR.nan⟩ := by
    rw [R, hdd, show (1 : ℝ) - 4503599627370498 / 2 ^ 52 = -(1 / 2 ^ 51) by norm_num, nearest_neg]
    have : nearest 52 (1 / 2 ^ 51) = 4503599627370496 / 2 ^ (52 + 51) := nearest_binade 51 4503599627370496 (by norm_num) (by norm_num) (by norm_num) (by norm_num)
    rw [this]
    change FX.rd _ (CReal.sqrt (XR.fin _)) = _
    rw [XR.fin_sqrt_neg (by norm_num)]
    rfl
  rw [hneg, saamWith_nan] at hrun
  exact ⟨_, hrun⟩

/-- `quatToUnit` of numbers gives numbers. -/
theorem quatToUnit_num (a b c d : ℝ) : ∃ r : ℍ[ℝ], quatToUnit (⟨FX.of F a, FX.of F b, FX.of F c, FX.of F d⟩ : Quat (FX F)) = qF F r := by
  obtain ⟨x, hx⟩ : ∃ x : ℝ, quatMagn (⟨FX.of F a, FX.of F b, FX.of F c, FX.of F d⟩ : Quat (FX F)) = FX.of F x := by
    rw [quatMagn]
    simp only [FX.of_mul, FX.of_add]
    refine ⟨_, FX.of_sqrt ?_⟩
    exact F.rnd_nonneg (add_nonneg (F.rnd_nonneg (add_nonneg (F.rnd_nonneg (add_nonneg (F.rnd_nonneg (mul_self_nonneg _)) (F.rnd_nonneg (mul_self_nonneg _))))
      (F.rnd_nonneg (mul_self_nonneg _)))) (F.rnd_nonneg (mul_self_nonneg _)))
  rw [quatToUnit, hx]
  by_cases h : CReal.lt (CReal.abs (FX.of F x)) (lit 1e-6 : FX F) = true
  · simp only [if_pos h]
    exact ⟨Verif.hq 0 0 0 0, by rw [lit0_F]; rfl⟩
  · simp only [if_neg h]
    have hx0 : x ≠ 0 := by
      rintro rfl
      apply h
      rw [FX.of_abs, FX.lit_eq, FX.of_lt, abs_zero]
      exact F.rnd_pos (by norm_num)
    exact ⟨Verif.hq _ _ _ _, by simp only [FX.of_div hx0]; rfl⟩

/-- C166. `zsl_fus_saam_feed` in floating point returns 0 and an attitude of numbers, never NaN, for readings longer than twice `1e-6` whose directions are
not parallel up to seventeen roundings. -/
theorem saam_feed_numbers_partial (hu : F.u ≤ 1 / 16) (junk : ℕ → FX F) (a m g : V3) (q : Quat (FX F)) (ha : 2e-6 ≤ len a) (hm : 2e-6 ≤ len m)
    (hp : |a ⬝ᵥ m| ≤ (1 - gam F.u 17) * (len a * len m)) :
    ∃ (s : Sens (FX F)) (r : ℍ[ℝ]), fusSaamFeed junk (sensF F ⟨some a, some m, g⟩) q = ok (0, s, qF F r) := by
  have la : 0 < len a := by linarith
  have lm : 0 < len m := by linarith
  have ea : len a = Real.sqrt (∑ i, a i ^ 2) := len_sum _
  have em : len m = Real.sqrt (∑ i, m i ^ 2) := len_sum _
  obtain ⟨y, ey, hy, _⟩ := vec_to_unit_rounding F a (by rintro rfl; simp [len] at la) []
  obtain ⟨z, ez, hz, _⟩ := vec_to_unit_rounding F m (by rintro rfl; simp [len] at lm) []
  rw [← ea] at hy
  rw [← em] at hz
  obtain ⟨w, hw, ed⟩ := vecDot_F F y z [] [] (junk 0)
  have hd1 : |∑ i, y i * z i * w i| ≤ 1 := by
    have hnear : ∀ i, Near F.u 17 (y i * z i * w i) (a i / len a * (m i / len m)) := by
      intro i
      obtain ⟨s, hs, es⟩ := (hy i).mul F (hz i)
      refine ⟨s * w i, hs.mul' F (hw i), ?_⟩
      rw [es]
      ring
    have he : ∀ i, |y i * z i * w i - a i / len a * (m i / len m)| ≤ gam F.u 17 * |a i / len a * (m i / len m)| := fun i => (hnear i).err F
    have hcs : ∑ i, |a i / len a * (m i / len m)| ≤ 1 := by
      have h1 : ∀ i, |a i / len a * (m i / len m)| ≤ ((a i / len a) ^ 2 + (m i / len m) ^ 2) / 2 := by
        intro i
        rw [abs_le]
        constructor <;> nlinarith [sq_nonneg (a i / len a + m i / len m), sq_nonneg (a i / len a - m i / len m)]
      have sa : ∑ i, (a i / len a) ^ 2 = 1 := by
        have : ∑ i, (a i / len a) ^ 2 = (∑ i, a i ^ 2) / len a ^ 2 := by rw [Finset.sum_div]; exact Finset.sum_congr rfl fun i _ => div_pow _ _ _
        rw [this, ea, Real.sq_sqrt (Finset.sum_nonneg fun i _ => sq_nonneg _), div_self]
        intro h
        rw [ea, h] at la
        simp at la
      have sm : ∑ i, (m i / len m) ^ 2 = 1 := by
        have : ∑ i, (m i / len m) ^ 2 = (∑ i, m i ^ 2) / len m ^ 2 := by rw [Finset.sum_div]; exact Finset.sum_congr rfl fun i _ => div_pow _ _ _
        rw [this, em, Real.sq_sqrt (Finset.sum_nonneg fun i _ => sq_nonneg _), div_self]
        intro h
        rw [em, h] at lm
        simp at lm
      calc ∑ i, |a i / len a * (m i / len m)| ≤ ∑ i, ((a i / len a) ^ 2 + (m i / len m) ^ 2) / 2 := Finset.sum_le_sum fun i _ => h1 i
        _ = 1 := by rw [← Finset.sum_div, Finset.sum_add_distrib, sa, sm]; norm_num
    have hs : ∑ i, a i / len a * (m i / len m) = (a ⬝ᵥ m) / (len a * len m) := by
      rw [dotProduct, Finset.sum_div]
      exact Finset.sum_congr rfl fun i _ => by rw [div_mul_div_comm]
    have ht : |(a ⬝ᵥ m) / (len a * len m)| ≤ 1 - gam F.u 17 := by
      rw [abs_div, abs_of_pos (mul_pos la lm), div_le_iff₀ (mul_pos la lm)]
      exact hp
    have g0 := gam_nonneg F.u_nonneg F.u_lt 17
    calc |∑ i, y i * z i * w i| = |∑ i, (y i * z i * w i - a i / len a * (m i / len m)) + (a ⬝ᵥ m) / (len a * len m)| := by
          rw [← hs, ← Finset.sum_add_distrib]
          congr 1
          exact Finset.sum_congr rfl fun i _ => by ring
      _ ≤ |∑ i, (y i * z i * w i - a i / len a * (m i / len m))| + |(a ⬝ᵥ m) / (len a * len m)| := abs_add_le _ _
      _ ≤ ∑ i, gam F.u 17 * |a i / len a * (m i / len m)| + (1 - gam F.u 17) :=
          add_le_add ((Finset.abs_sum_le_sum_abs _ _).trans (Finset.sum_le_sum fun i _ => he i)) ht
      _ ≤ 1 := by
          rw [← Finset.mul_sum]
          nlinarith
  obtain ⟨d, hd⟩ : ∃ d, ∑ i, y i * z i * w i = d := ⟨_, rfl⟩
  rw [hd] at ed hd1
  have hdd : F.rnd (d * d) ≤ 1 := by
    have := F.mono (show d * d ≤ 1 by rw [← sq]; exact (sq_le_one_iff_abs_le_one d).2 hd1)
    rwa [F.one] at this
  have hrun := saam_run hu junk a m (vecF F g []) q ha hm ey ez ed
  rw [FX.of_sqrt (F.rnd_nonneg (by linarith)), saamWith] at hrun
  simp only [lit1_F, FX.of_neg, FX.of_add, FX.of_sub, FX.of_mul] at hrun
  obtain ⟨r, hr⟩ := quatToUnit_num (F := F) _ _ _ _
  rw [hr] at hrun
  exact ⟨_, r, hrun⟩

/-- The hypotheses hold in double precision for gravity along z and a field that dips by 45 degrees. -/
example (lib : Libm) : |(![0, 0, 9.81] : V3) ⬝ᵥ ![20, 0, 20]| ≤ (1 - gam (nearestRounding 52 lib).u 17) * (len ![0, 0, 9.81] * len ![20, 0, 20]) := by
  have h1 : len ![0, 0, 9.81] = 9.81 := by
    rw [len, show (![0, 0, 9.81] : V3) ⬝ᵥ ![0, 0, 9.81] = 9.81 ^ 2 by simp [dotProduct, Fin.sum_univ_three]; norm_num, Real.sqrt_sq (by norm_num)]
  have h2 : (25 : ℝ) ≤ len ![20, 0, 20] := by
    rw [len]
    exact Real.le_sqrt_of_sq_le (by norm_num)
  have hg : gam (nearestRounding 52 lib).u 17 ≤ 1 / 10 := by
    simp only [gam, nearestRounding]
    norm_num
  rw [h1]
  have h3 : |(![0, 0, 9.81] : V3) ⬝ᵥ ![20, 0, 20]| = 9.81 * 20 := by
    rw [show (![0, 0, 9.81] : V3) ⬝ᵥ ![20, 0, 20] = 9.81 * 20 by simp [dotProduct, Fin.sum_univ_three], abs_of_pos (by norm_num)]
  rw [h3]
  nlinarith

end Verif
