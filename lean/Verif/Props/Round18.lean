import Verif.Props.Round16
import Verif.Props.Round17
import Verif.Model.Attitude

/-!
# The angle between two readings in floating point (C167)
-/

namespace Verif

open Out

variable {F : Rounding}

/-- The inverse cosine of the library is accurate up to `k` roundings for arguments from -1 to 1. -/
def AccurateAcos (F : Rounding) (k : ℕ) : Prop :=
  ∀ x : ℝ, -1 ≤ x → x ≤ 1 → ∃ t, F.lib.fn1 "acos" (XR.fin x) = XR.fin t ∧ Near F.u k t (Real.arccos x)

theorem sum_div_len (a : V3) (ha : 0 < len a) : ∑ i, (a i / len a) ^ 2 = 1 := by
  have : ∑ i, (a i / len a) ^ 2 = (∑ i, a i ^ 2) / len a ^ 2 := by
    rw [Finset.sum_div]
    exact Finset.sum_congr rfl fun i _ => div_pow _ _ _
  rw [this, len_sum, Real.sq_sqrt (Finset.sum_nonneg fun i _ => sq_nonneg _), div_self]
  intro h
  rw [len_sum, h] at ha
  simp at ha

/-- The elements of the cosine of the angle add up, in absolute value, to at most one. -/
theorem sum_abs_le_one (a m : V3) (la : 0 < len a) (lm : 0 < len m) : ∑ i, |a i * m i| ≤ len a * len m := by
  have h1 : ∀ i, |a i / len a * (m i / len m)| ≤ ((a i / len a) ^ 2 + (m i / len m) ^ 2) / 2 := by
    intro i
    rw [abs_le]
    constructor <;> nlinarith [sq_nonneg (a i / len a + m i / len m), sq_nonneg (a i / len a - m i / len m)]
  have h2 : ∑ i, |a i / len a * (m i / len m)| ≤ 1 := by
    calc ∑ i, |a i / len a * (m i / len m)| ≤ ∑ i, ((a i / len a) ^ 2 + (m i / len m) ^ 2) / 2 := Finset.sum_le_sum fun i _ => h1 i
      _ = 1 := by rw [← Finset.sum_div, Finset.sum_add_distrib, sum_div_len a la, sum_div_len m lm]; norm_num
  have h3 : ∑ i, |a i / len a * (m i / len m)| = (∑ i, |a i * m i|) / (len a * len m) := by
    rw [Finset.sum_div]
    refine Finset.sum_congr rfl fun i _ => ?_
    rw [div_mul_div_comm, abs_div, abs_of_pos (mul_pos la lm)]
  rw [h3, div_le_one (mul_pos la lm)] at h2
  exact h2

/-- C167. `zsl_att_accel_angle` in floating point takes the inverse cosine of a number which is off the cosine of the angle between the readings by at most
thirteen roundings, for any two readings that are not zero. -/
theorem att_accel_angle_argument (junk : ℕ → FX F) (a b : V3) (x : FX F) (ha : 0 < len a) (hb : 0 < len b) :
    ∃ c : ℝ, attAccelAngle junk (vecF F a []) (vecF F b []) x = ok (0, CReal.acos (FX.of F c)) ∧
      |c - (a ⬝ᵥ b) / (len a * len b)| ≤ gam F.u 13 := by
  obtain ⟨na, ena, hna⟩ := vecNorm_F F a []
  obtain ⟨nb, enb, hnb⟩ := vecNorm_F F b []
  rw [← len_sum] at hna hnb
  obtain ⟨w, hw, ed⟩ := vecDot_F F a b [] [] (junk 0)
  have hp := mul_pos ha hb
  have hden := (hna.mul F hnb).rnd F
  have hne : F.rnd (na * nb) ≠ 0 := hden.ne_zero F hp.ne'
  obtain ⟨s, hs, es⟩ := ((Near.refl F (k := 0) (∑ i, a i * b i * w i)).div F hden).rnd F
  refine ⟨F.rnd ((∑ i, a i * b i * w i) / F.rnd (na * nb)), ?_, ?_⟩
  · unfold attAccelAngle
    rw [if_neg (by simp [vecF, vecOf]), ena, ok_bind, enb, ok_bind, ed, ok_bind]
    dsimp only
    rw [FX.of_mul, FX.of_div hne]
    rfl
  · have hterm : ∀ i, |a i * b i / (len a * len b) * (s * w i) - a i * b i / (len a * len b)| ≤ gam F.u 13 * |a i * b i / (len a * len b)| := by
      intro i
      have hn : Near F.u 13 (a i * b i / (len a * len b) * (s * w i)) (a i * b i / (len a * len b)) :=
        ⟨s * w i, (hs.mul' F (hw i)).mono F.u_nonneg F.u_lt (by norm_num), rfl⟩
      exact hn.err F
    have e : F.rnd ((∑ i, a i * b i * w i) / F.rnd (na * nb)) - (a ⬝ᵥ b) / (len a * len b) =
        ∑ i, (a i * b i / (len a * len b) * (s * w i) - a i * b i / (len a * len b)) := by
      rw [es, Finset.sum_sub_distrib, dotProduct, Finset.sum_div, Finset.sum_div, Finset.sum_mul]
      congr 1
      exact Finset.sum_congr rfl fun i _ => by ring
    rw [e]
    have g0 := gam_nonneg F.u_nonneg F.u_lt 13
    calc _ ≤ ∑ i, gam F.u 13 * |a i * b i / (len a * len b)| := (Finset.abs_sum_le_sum_abs _ _).trans (Finset.sum_le_sum fun i _ => hterm i)
      _ = gam F.u 13 * ((∑ i, |a i * b i|) / (len a * len b)) := by
          rw [← Finset.mul_sum, Finset.sum_div]
          congr 1
          exact Finset.sum_congr rfl fun i _ => by rw [abs_div, abs_of_pos hp]
      _ ≤ gam F.u 13 * 1 := mul_le_mul_of_nonneg_left ((div_le_one hp).2 (sum_abs_le_one a b ha hb)) g0
      _ = gam F.u 13 := mul_one _

/-- C167. With an inverse cosine accurate up to `k` roundings, and readings that are not parallel up to thirteen roundings, the returned angle is a number whose
cosine is off the cosine of the angle between the readings by at most thirteen roundings, and `k` roundings of a half turn. Missing for the full claim: parallel readings, see
`att_accel_angle_same_nan`. -/
theorem att_accel_angle_rounding_partial {k : ℕ} (hk : AccurateAcos F k) (junk : ℕ → FX F) (a b : V3) (x : FX F) (ha : 0 < len a) (hb : 0 < len b)
    (hp : |a ⬝ᵥ b| ≤ (1 - gam F.u 13) * (len a * len b)) :
    ∃ t : ℝ, attAccelAngle junk (vecF F a []) (vecF F b []) x = ok (0, FX.of F t) ∧ 0 ≤ t ∧
      |Real.cos t - (a ⬝ᵥ b) / (len a * len b)| ≤ gam F.u 13 + gam F.u k * Real.pi := by
  obtain ⟨c, hc, hd⟩ := att_accel_angle_argument junk a b x ha hb
  have hl := mul_pos ha hb
  have h1 : |(a ⬝ᵥ b) / (len a * len b)| ≤ 1 - gam F.u 13 := by
    rw [abs_div, abs_of_pos hl, div_le_iff₀ hl]
    exact hp
  have h2 := abs_le.1 h1
  have h3 := abs_le.1 hd
  obtain ⟨t, e, hn⟩ := hk c (by linarith) (by linarith)
  refine ⟨t, ?_, hn.nonneg F (Real.arccos_nonneg c), ?_⟩
  · rw [hc]
    change ok (0, (⟨F.lib.fn1 "acos" (XR.fin c)⟩ : FX F)) = _
    rw [e]
    rfl
  · have h4 := hn.err F
    have h5 : |Real.cos t - c| ≤ |t - Real.arccos c| := by
      have := chord_le t (Real.arccos c)
      rw [Real.cos_arccos (by linarith) (by linarith)] at this
      exact sq_le_sq.1 (by nlinarith [sq_nonneg (Real.sin t - Real.sin (Real.arccos c))])
    have g0 := gam_nonneg F.u_nonneg F.u_lt k
    have h6 : |Real.arccos c| ≤ Real.pi := by
      rw [abs_of_nonneg (Real.arccos_nonneg c)]
      exact Real.arccos_le_pi c
    have h7 : gam F.u k * |Real.arccos c| ≤ gam F.u k * Real.pi := mul_le_mul_of_nonneg_left h6 g0
    calc _ ≤ |Real.cos t - c| + |c - (a ⬝ᵥ b) / (len a * len b)| := abs_sub_le _ _ _
      _ ≤ _ := by linarith

/-- Rounding of a number between 2 and 4 to double precision. -/
theorem nearest_two_four {x : ℝ} (m : ℤ) (h1 : 2 ≤ x) (h2 : x < 4) (h3 : (m : ℝ) - 1 / 2 ≤ x * 2 ^ 51) (h4 : x * 2 ^ 51 < m + 1 / 2) :
    nearest 52 x = m / 2 ^ 51 := by
  rw [nearest_of 52 (L := 1) (by simpa using h1) (by norm_num; exact h2)]
  have e : ((2 : ℝ) ^ ((1 : ℤ) - (52 : ℕ))) = (2 ^ 51)⁻¹ := by norm_num [zpow_neg]
  rw [e, div_inv_eq_mul]
  have : round (x * 2 ^ 51) = m := by
    rw [round_eq, Int.floor_eq_iff]
    constructor <;> linarith
  rw [this, div_eq_mul_inv]

/-- C167. A reading may not be compared with itself: in double precision, with any library whose inverse cosine is NaN above one, the angle between the reading (1, 1, 1) and
itself is NaN, and `zsl_att_accel_angle` returns 0. The rounded product of the norms is smaller than the dot product. -/
theorem att_accel_angle_same_nan (lib : Libm) (hlib : ∀ x : ℝ, 1 < x → lib.fn1 "acos" (XR.fin x) = XR.nan) (junk : ℕ → FX (nearestRounding 52 lib))
    (x : FX (nearestRounding 52 lib)) :
    attAccelAngle junk (vecF _ ![1, 1, 1] []) (vecF _ ![1, 1, 1] []) x = ok (0, ⟨XR.nan⟩) := by
  have R : (nearestRounding 52 lib).rnd = nearest 52 := rfl
  have n1 : nearest 52 1 = 1 := by exact_mod_cast nearest_nat 52 1 (by norm_num)
  have n2 : nearest 52 2 = 2 := by exact_mod_cast nearest_nat 52 2 (by norm_num)
  have n3 : nearest 52 3 = 3 := by exact_mod_cast nearest_nat 52 3 (by norm_num)
  have e : nearest 52 (nearest 52 (nearest 52 (0 + nearest 52 ((![1, 1, 1] : V3) 0 * (![1, 1, 1] : V3) 0)) + nearest 52 ((![1, 1, 1] : V3) 1 * (![1, 1, 1] : V3) 1)) +
      nearest 52 ((![1, 1, 1] : V3) 2 * (![1, 1, 1] : V3) 2)) = 3 := by
    simp only [Matrix.cons_val_zero, Matrix.cons_val_one, Matrix.cons_val]
    norm_num [nearest_zero, n1, n2, n3]
  have hs : nearest 52 (Real.sqrt 3) = 7800463371553962 / 2 ^ 52 := by
    refine nearest_one_two 7800463371553962 ?_ ?_ ?_ ?_
    · exact Real.le_sqrt_of_sq_le (by norm_num)
    · rw [Real.sqrt_lt' (by norm_num)]; norm_num
    · have : (7800463371553962 - 1 / 2) / 2 ^ 52 ≤ Real.sqrt 3 := Real.le_sqrt_of_sq_le (by norm_num)
      rw [div_le_iff₀ (by norm_num)] at this
      exact_mod_cast this
    · have : Real.sqrt 3 < (7800463371553962 + 1 / 2) / 2 ^ 52 := by
        rw [Real.sqrt_lt' (by norm_num)]; norm_num
      rw [lt_div_iff₀ (by norm_num)] at this
      exact_mod_cast this
  have hn : vecNorm (vecF (nearestRounding 52 lib) ![1, 1, 1] []) = ok (FX.of _ (7800463371553962 / 2 ^ 52)) := by
    rw [vecNorm, vecSumOfSqrs, vecDot3_F, ok_bind]
    simp only [pure_eq, ok_bind, R]
    rw [e, FX.of_sqrt (by norm_num), R, hs]
  have hm : nearest 52 (7800463371553962 / 2 ^ 52 * (7800463371553962 / 2 ^ 52)) = 6755399441055743 / 2 ^ 51 :=
    nearest_two_four 6755399441055743 (by norm_num) (by norm_num) (by norm_num) (by norm_num)
  have hq : nearest 52 (3 / (6755399441055743 / 2 ^ 51)) = 4503599627370497 / 2 ^ 52 :=
    nearest_one_two 4503599627370497 (by norm_num) (by norm_num) (by norm_num) (by norm_num)
  unfold attAccelAngle
  rw [if_neg (by simp [vecF, vecOf]), hn, ok_bind, ok_bind, vecDot3_F, ok_bind]
  dsimp only
  rw [FX.of_mul, R, e, hm, FX.of_div (by norm_num), R, hq]
  change ok (0, (⟨lib.fn1 "acos" (XR.fin (4503599627370497 / 2 ^ 52))⟩ : FX (nearestRounding 52 lib))) = _
  rw [hlib _ (by norm_num)]

/-- Two readings that meet the hypotheses in double precision. -/
example (lib : Libm) : |(![0, 0, 9.81] : V3) ⬝ᵥ ![20, 0, 20]| ≤ (1 - gam (nearestRounding 52 lib).u 13) * (len ![0, 0, 9.81] * len ![20, 0, 20]) := by
  have h1 : len ![0, 0, 9.81] = 9.81 := by
    rw [len, show (![0, 0, 9.81] : V3) ⬝ᵥ ![0, 0, 9.81] = 9.81 ^ 2 by simp [dotProduct, Fin.sum_univ_three]; norm_num, Real.sqrt_sq (by norm_num)]
  have h2 : (25 : ℝ) ≤ len ![20, 0, 20] := by
    rw [len]
    exact Real.le_sqrt_of_sq_le (by norm_num)
  have hg : gam (nearestRounding 52 lib).u 13 ≤ 1 / 10 := by
    simp only [gam, nearestRounding]
    norm_num
  rw [h1, show (![0, 0, 9.81] : V3) ⬝ᵥ ![20, 0, 20] = 9.81 * 20 by simp [dotProduct, Fin.sum_univ_three], abs_of_pos (by norm_num)]
  nlinarith

/-- A library with an exact inverse cosine meets both assumptions on the library. -/
example : ∃ lib : Libm, AccurateAcos (nearestRounding 52 lib) 0 ∧ ∀ x : ℝ, 1 < x → lib.fn1 "acos" (XR.fin x) = XR.nan := by
  refine ⟨⟨fun _ x => CReal.acos x, fun x _ => x, fun x _ => x⟩, fun x h1 h2 => ⟨_, XR.fin_acos ⟨h1, h2⟩, Near.refl _ _⟩, fun x hx => ?_⟩
  change XR.liftOn (Set.Icc (-1) 1) Real.arccos (XR.fin x) = _
  rw [XR.liftOn, if_neg fun h => by linarith [h.2]]

end Verif
