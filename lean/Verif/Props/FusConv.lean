import Verif.Props.Fusion5
import Mathlib.Analysis.SpecificLimits.Basic
import Mathlib.Analysis.Convex.SpecificFunctions.Deriv

/-!
# C146: a device at rest. Where the attitude of a filter goes when the same readings are fed again and again
-/

namespace Verif

open Quaternion Matrix Out Filter Topology

theorem eulerStep_rest (f : ℕ) (q : ℍ[ℝ]) : eulerStep f 0 q = direction q := by
  have : pureQ 0 = 0 := by ext <;> simp [pureQ]
  unfold eulerStep
  rw [this, smul_zero, add_zero, one_mul, direction_direction]

/-! ### The complementary filter -/

theorem dist_qdot {u p : ℍ[ℝ]} (hu : ‖u‖ = 1) (hp : ‖p‖ = 1) : ‖u - p‖ ^ 2 = 2 * (1 - qdot u p) := by
  have a := unit_eq hu
  have b := unit_eq hp
  rw [norm_sq_quat]
  simp [qdot]
  linarith

theorem mix_norm_sq {u p : ℍ[ℝ]} (hu : ‖u‖ = 1) (hp : ‖p‖ = 1) (t : ℝ) :
    ‖(1 - t) • u + t • p‖ ^ 2 = 1 - 2 * t * (1 - t) * (1 - qdot u p) := by
  have a := unit_eq hu
  have b := unit_eq hp
  rw [norm_sq_quat]
  simp [qdot]
  linear_combination (1 - t) ^ 2 * a + t ^ 2 * b

theorem mix_step {u p : ℍ[ℝ]} (hu : ‖u‖ = 1) (hp : ‖p‖ = 1) {t : ℝ} (hc : -1 + 2e-12 ≤ qdot u p) :
    ∃ N : ℝ, 1e-6 ≤ N ∧ ‖(1 - t) • u + t • p‖ = N ∧ N ^ 2 = 1 - 2 * t * (1 - t) * (1 - qdot u p) ∧
      qdot (direction ((1 - t) • u + t • p)) p = ((1 - t) * qdot u p + t) / N := by
  have hN := mix_norm_sq hu hp t
  have h1 := (qdot_le hu hp).2
  have h6 : 1e-6 ≤ ‖(1 - t) • u + t • p‖ := by
    have h0 := norm_nonneg ((1 - t) • u + t • p)
    by_contra hlt
    have hlt := not_le.1 hlt
    have : ‖(1 - t) • u + t • p‖ ^ 2 < 1e-12 := by nlinarith
    rw [hN] at this
    nlinarith [mul_nonneg (sq_nonneg (2 * t - 1)) (sub_nonneg.2 h1)]
  refine ⟨_, h6, rfl, hN, ?_⟩
  have hd : direction ((1 - t) • u + t • p) = ‖(1 - t) • u + t • p‖⁻¹ • ((1 - t) • u + t • p) := if_neg (not_lt.2 h6)
  rw [hd, div_eq_inv_mul]
  generalize ‖(1 - t) • u + t • p‖⁻¹ = k
  have b := unit_eq hp
  simp [qdot]
  linear_combination k * t * b

/-- The square of the tangent of half the angle with cosine `c`. -/
noncomputable def tanHalf (c : ℝ) : ℝ := (1 - c) / (1 + c)

theorem tanHalf_le {c d : ℝ} (hc : -1 < c) (hd : -1 < d) : tanHalf d ≤ tanHalf c ↔ c ≤ d := by
  unfold tanHalf
  rw [div_le_div_iff₀ (by linarith) (by linarith)]
  constructor <;> intro h <;> linarith

theorem tanHalf_nonneg {c : ℝ} (hc : -1 < c) (h1 : c ≤ 1) : 0 ≤ tanHalf c := div_nonneg (by linarith) (by linarith)

/-- The rate at which the complementary filter with the weight `t` settles from an attitude whose cosine with the measured one is `c`. -/
noncomputable def compRate (t c : ℝ) : ℝ :=
  2 * (1 - t) / (2 * (1 - t) + (Real.sqrt ((1 - 2 * t) ^ 2 + 2 * t * (1 - t) * (1 + c)) - (1 - 2 * t)))

theorem compRate_aux {t c : ℝ} (h0 : 0 < t) (h1 : t ≤ 1) (hc : -1 < c) :
    0 < Real.sqrt ((1 - 2 * t) ^ 2 + 2 * t * (1 - t) * (1 + c)) - (1 - 2 * t) := by
  rw [sub_pos]
  rcases h1.lt_or_eq with h | h
  · apply Real.lt_sqrt_of_sq_lt
    have := mul_pos (mul_pos (mul_pos two_pos h0) (sub_pos.2 h)) (show 0 < 1 + c by linarith)
    linarith
  · subst h
    have := Real.sqrt_nonneg ((1 - 2 * (1 : ℝ)) ^ 2 + 2 * 1 * (1 - 1) * (1 + c))
    linarith

theorem compRate_mem {t c : ℝ} (h0 : 0 < t) (h1 : t ≤ 1) (hc : -1 < c) : 0 ≤ compRate t c ∧ compRate t c < 1 := by
  have hd := compRate_aux h0 h1 hc
  unfold compRate
  exact ⟨div_nonneg (by linarith) (by linarith), by rw [div_lt_one (by linarith)]; linarith⟩

theorem mix_scalar {t c c0 N : ℝ} (h0 : 0 < t) (h1 : t ≤ 1) (hc0 : -1 < c0) (hc : c0 ≤ c) (hc1 : c ≤ 1) (hN : 0 < N)
    (e : N ^ 2 = 1 - 2 * t * (1 - t) * (1 - c)) :
    -1 < ((1 - t) * c + t) / N ∧ tanHalf (((1 - t) * c + t) / N) ≤ compRate t c0 ^ 2 * tanHalf c := by
  have hd := compRate_aux h0 h1 hc0
  have hs : Real.sqrt ((1 - 2 * t) ^ 2 + 2 * t * (1 - t) * (1 + c0)) ≤ N := by
    apply Real.sqrt_le_iff.2 ⟨hN.le, _⟩
    rw [e]
    nlinarith [mul_nonneg (mul_nonneg h0.le (sub_nonneg.2 h1)) (sub_nonneg.2 hc)]
  obtain ⟨D, hD⟩ : ∃ D, D = N + ((1 - t) * c + t) := ⟨_, rfl⟩
  have hx : 0 ≤ (1 - t) * (1 + c) := mul_nonneg (by linarith) (by linarith)
  have hDp : 0 < D := by rw [hD]; linarith
  have hlow : -1 < ((1 - t) * c + t) / N := by rw [lt_div_iff₀ hN]; linarith
  refine ⟨hlow, ?_⟩
  have hT : tanHalf (((1 - t) * c + t) / N) = ((1 - t) * (1 + c) / D) ^ 2 * tanHalf c := by
    unfold tanHalf
    have h3 : 1 + c ≠ 0 := by linarith
    have h4 : 1 + ((1 - t) * c + t) / N = D / N := by rw [hD]; field_simp
    have h5 : 1 - ((1 - t) * c + t) / N = (N - ((1 - t) * c + t)) / N := by field_simp
    rw [h4, h5, div_div_div_cancel_right₀ hN.ne', div_pow, div_mul_div_comm, div_eq_div_iff hDp.ne' (by positivity)]
    have : (N - ((1 - t) * c + t)) * D = (1 - t) ^ 2 * (1 - c ^ 2) := by rw [hD]; linear_combination e
    linear_combination (D * (1 + c)) * this
  rw [hT]
  refine mul_le_mul_of_nonneg_right ?_ (tanHalf_nonneg (by linarith) hc1)
  refine pow_le_pow_left₀ (div_nonneg hx hDp.le) ?_ 2
  unfold compRate
  rw [div_le_div_iff₀ hDp (by linarith)]
  have hX : (1 - t) * (1 + c) ≤ 2 * (1 - t) := by nlinarith
  have : (1 - t) * (1 + c) * (Real.sqrt ((1 - 2 * t) ^ 2 + 2 * t * (1 - t) * (1 + c0)) - (1 - 2 * t)) ≤ 2 * (1 - t) * (N - (1 - 2 * t)) :=
    mul_le_mul hX (by linarith) hd.le (by linarith)
  rw [hD]
  nlinarith

/-- The attitudes of the complementary filter at rest. -/
noncomputable def compRun (t : ℝ) (p q : ℍ[ℝ]) : ℕ → ℍ[ℝ]
  | 0 => q
  | n + 1 => direction ((1 - t) • direction (compRun t p q n) + t • p)

theorem compRun_inv {t : ℝ} (h0 : 0 < t) (h1 : t ≤ 1) {p q : ℍ[ℝ]} (hp : ‖p‖ = 1) (hq : 1e-6 ≤ ‖q‖) (hc : -1 + 2e-12 ≤ qdot (direction q) p) (n : ℕ) :
    1e-6 ≤ ‖compRun t p q n‖ ∧ qdot (direction q) p ≤ qdot (direction (compRun t p q n)) p ∧
      tanHalf (qdot (direction (compRun t p q n)) p) ≤ compRate t (qdot (direction q) p) ^ (2 * n) * tanHalf (qdot (direction q) p) := by
  induction n with
  | zero => exact ⟨hq, le_rfl, by simp [compRun]⟩
  | succ n ih =>
    obtain ⟨i1, i2, i3⟩ := ih
    have hu := norm_direction i1
    obtain ⟨N, n1, n2, n3, n4⟩ := mix_step hu hp (t := t) (hc.trans i2)
    have hd := norm_direction (by rw [n2]; exact n1)
    have hdd : direction (compRun t p q (n + 1)) = direction ((1 - t) • direction (compRun t p q n) + t • p) := direction_direction _
    have hm : -1 < qdot (direction q) p := by linarith
    obtain ⟨m1, m2⟩ := mix_scalar h0 h1 hm i2 (qdot_le hu hp).2 (by linarith) n3
    have hr := compRate_mem h0 h1 hm
    rw [hdd, n4]
    refine ⟨by unfold compRun; rw [hd]; norm_num, ?_, ?_⟩
    · refine i2.trans ((tanHalf_le (by linarith) m1).1 (m2.trans ?_))
      have := tanHalf_nonneg (show -1 < qdot (direction (compRun t p q n)) p by linarith) (qdot_le hu hp).2
      exact mul_le_of_le_one_left this (pow_le_one₀ hr.1 hr.2.le)
    · rw [show 2 * (n + 1) = 2 + 2 * n by ring, pow_add, mul_assoc]
      exact m2.trans (mul_le_mul_of_nonneg_left i3 (by positivity))

theorem comp_run_feed (junk : ℕ → XR) {f : ℕ} (hf : 0 < f) {t : ℝ} (h0 : 0 < t) (h1 : t ≤ 1) (q : ℍ[ℝ]) (hq : 1e-6 ≤ ‖q‖) (a m : V3)
    (ha : 1e-6 < len a) (hm : 1e-6 < len m) (hc : -1 + 2e-12 ≤ qdot (direction q) (quatAm a m)) (n : ℕ) :
    fusCompFeed junk f (XR.fin t) (Reading.sens ⟨some a, some m, 0⟩) (quat (compRun t (quatAm a m) q n)) =
      ok (0, quat (compRun t (quatAm a m) q (n + 1))) := by
  rw [comp_feed_correct junk hf t h0.le h1 _ (compRun_inv h0 h1 (norm_quatAm a m) hq hc n).1 a m 0 ha hm, eulerStep_rest]
  rfl

/-- C146. With the device at rest and the same readings of the accelerometer and the magnetometer, the attitude of the complementary filter
tends to the one the two sensors give, at a geometric rate, from every attitude that is not (within `2e-12`) the opposite quaternion. -/
theorem comp_settles (junk : ℕ → XR) {f : ℕ} (hf : 0 < f) {t : ℝ} (h0 : 0 < t) (h1 : t ≤ 1) (q : ℍ[ℝ]) (hq : 1e-6 ≤ ‖q‖) (a m : V3)
    (ha : 1e-6 < len a) (hm : 1e-6 < len m) (hc : -1 + 2e-12 ≤ qdot (direction q) (quatAm a m)) :
    ∃ Q : ℕ → ℍ[ℝ], Q 0 = q ∧
      (∀ n, fusCompFeed junk f (XR.fin t) (Reading.sens ⟨some a, some m, 0⟩) (quat (Q n)) = ok (0, quat (Q (n + 1)))) ∧
      (∃ k C : ℝ, 0 ≤ k ∧ k < 1 ∧ ∀ n, ‖Q (n + 1) - quatAm a m‖ ≤ C * k ^ (n + 1)) ∧
      Tendsto Q atTop (𝓝 (quatAm a m)) := by
  have hp := norm_quatAm a m
  have hm1 : -1 < qdot (direction q) (quatAm a m) := by linarith
  have hr := compRate_mem h0 h1 hm1
  have hbound : ∀ n, ‖compRun t (quatAm a m) q (n + 1) - quatAm a m‖ ≤
      2 * Real.sqrt (tanHalf (qdot (direction q) (quatAm a m))) * compRate t (qdot (direction q) (quatAm a m)) ^ (n + 1) := by
    intro n
    obtain ⟨i1, i2, i3⟩ := compRun_inv h0 h1 hp hq hc (n + 1)
    have hu := norm_direction i1
    have hdd : direction (compRun t (quatAm a m) q (n + 1)) = compRun t (quatAm a m) q (n + 1) := direction_direction _
    rw [hdd] at hu i2 i3
    have hT0 := tanHalf_nonneg hm1 (qdot_le (norm_direction hq) hp).2
    have h5 := (qdot_le hu hp).2
    apply abs_le_of_sq_le_sq' _ (mul_nonneg (by positivity) (pow_nonneg hr.1 _)) |>.2
    rw [dist_qdot hu hp, mul_pow, mul_pow, Real.sq_sqrt hT0, ← pow_mul, mul_comm (n + 1) 2]
    have h6 : 1 - qdot (compRun t (quatAm a m) q (n + 1)) (quatAm a m) =
        tanHalf (qdot (compRun t (quatAm a m) q (n + 1)) (quatAm a m)) * (1 + qdot (compRun t (quatAm a m) q (n + 1)) (quatAm a m)) := by
      unfold tanHalf
      rw [div_mul_cancel₀ _ (by linarith)]
    have h7 := tanHalf_nonneg (show -1 < qdot (compRun t (quatAm a m) q (n + 1)) (quatAm a m) by linarith) h5
    rw [h6]
    nlinarith
  refine ⟨compRun t (quatAm a m) q, rfl, comp_run_feed junk hf h0 h1 q hq a m ha hm hc, ⟨_, _, hr.1, hr.2, hbound⟩, ?_⟩
  rw [← tendsto_add_atTop_iff_nat 1, tendsto_iff_norm_sub_tendsto_zero]
  refine squeeze_zero (fun _ => norm_nonneg _) hbound ?_
  rw [show (0 : ℝ) = 2 * Real.sqrt (tanHalf (qdot (direction q) (quatAm a m))) * 0 by ring]
  exact (((tendsto_pow_atTop_nhds_zero_of_lt_one hr.1 hr.2).comp (tendsto_add_atTop_nat 1)).const_mul _)

/-- C146. From an attitude in the same half of the quaternions as the measured one, every feed removes at least the part `t` of the squared
distance to it. -/
theorem comp_settles_rate (junk : ℕ → XR) {f : ℕ} (hf : 0 < f) {t : ℝ} (h0 : 0 < t) (h1 : t ≤ 1) (q : ℍ[ℝ]) (hq : ‖q‖ = 1) (a m : V3)
    (ha : 1e-6 < len a) (hm : 1e-6 < len m) (hc : 0 ≤ qdot q (quatAm a m)) :
    ∃ q', fusCompFeed junk f (XR.fin t) (Reading.sens ⟨some a, some m, 0⟩) (quat q) = ok (0, quat q') ∧ ‖q'‖ = 1 ∧ 0 ≤ qdot q' (quatAm a m) ∧
      ‖q' - quatAm a m‖ ^ 2 ≤ (1 - t) * ‖q - quatAm a m‖ ^ 2 := by
  have hp := norm_quatAm a m
  have hq6 : 1e-6 ≤ ‖q‖ := by rw [hq]; norm_num
  obtain ⟨N, n1, n2, n3, n4⟩ := mix_step hq hp (t := t) (show -1 + 2e-12 ≤ qdot q (quatAm a m) by linarith)
  have hu := norm_direction (by rw [n2]; exact n1)
  have hN : 0 < N := by linarith
  have hc1 := (qdot_le hq hp).2
  have hA : 0 ≤ (1 - t) * qdot q (quatAm a m) + t := add_nonneg (mul_nonneg (by linarith) hc) h0.le
  have hN1 : N ≤ 1 := by
    have := mul_nonneg (mul_nonneg h0.le (sub_nonneg.2 h1)) (sub_nonneg.2 hc1)
    nlinarith
  refine ⟨_, by rw [comp_feed_correct junk hf t h0.le h1 q hq6 a m 0 ha hm, eulerStep_rest, direction_of_norm_one hq], hu, ?_, ?_⟩
  · rw [n4]; positivity
  · rw [dist_qdot hu hp, dist_qdot hq hp, n4]
    have : (1 - t) * qdot q (quatAm a m) + t ≤ ((1 - t) * qdot q (quatAm a m) + t) / N := by
      rw [le_div_iff₀ hN]; nlinarith
    linarith

/-- C146. The claim that each feed brings the orientation closer to the measured one fails when the attitude is the other quaternion of a close
orientation: `q` and `-q` are the same orientation, but the filter goes from `q` to `quatAm a m` the long way round. The cosine of half the
angle between the two orientations is the absolute value of `qdot`; the feed makes it smaller. -/
theorem comp_turns_away (junk : ℕ → XR) {f : ℕ} (hf : 0 < f) {t : ℝ} (h0 : 0 < t) (h1 : t ≤ 1) (q : ℍ[ℝ]) (hq : ‖q‖ = 1) (a m : V3)
    (ha : 1e-6 < len a) (hm : 1e-6 < len m) (hc : -1 + 2e-12 ≤ qdot q (quatAm a m)) (hneg : (1 - t) * qdot q (quatAm a m) + t ≤ 0) :
    ∃ q', fusCompFeed junk f (XR.fin t) (Reading.sens ⟨some a, some m, 0⟩) (quat q) = ok (0, quat q') ∧ ‖q'‖ = 1 ∧
      |qdot q' (quatAm a m)| < |qdot q (quatAm a m)| := by
  have hp := norm_quatAm a m
  have hq6 : 1e-6 ≤ ‖q‖ := by rw [hq]; norm_num
  obtain ⟨N, n1, n2, n3, n4⟩ := mix_step hq hp (t := t) hc
  have hu := norm_direction (by rw [n2]; exact n1)
  have hN : 0 < N := by linarith
  have hc1 := (qdot_le hq hp).2
  have hm1 : -1 < qdot q (quatAm a m) := by linarith
  obtain ⟨m1, m2⟩ := mix_scalar h0 h1 hm1 le_rfl hc1 hN n3
  have hr := compRate_mem h0 h1 hm1
  have hcneg : qdot q (quatAm a m) < 0 := by
    by_contra hh
    have := mul_nonneg (sub_nonneg.2 h1) (not_lt.1 hh)
    linarith
  refine ⟨_, by rw [comp_feed_correct junk hf t h0.le h1 q hq6 a m 0 ha hm, eulerStep_rest, direction_of_norm_one hq], hu, ?_⟩
  rw [n4, abs_of_nonpos (div_nonpos_of_nonpos_of_nonneg hneg hN.le), abs_of_neg hcneg, neg_lt_neg_iff]
  have hT : 0 < tanHalf (qdot q (quatAm a m)) := div_pos (by linarith) (by linarith)
  have h3 : tanHalf (((1 - t) * qdot q (quatAm a m) + t) / N) < tanHalf (qdot q (quatAm a m)) := by
    refine lt_of_le_of_lt m2 ?_
    have : compRate t (qdot q (quatAm a m)) ^ 2 < 1 := by nlinarith [hr.1, hr.2]
    nlinarith
  by_contra hh
  exact absurd ((tanHalf_le m1 hm1).2 (not_lt.1 hh)) (not_le.2 h3)

/-- Level, facing north, believed turned by a right angle about the first axis. -/
example (junk : ℕ → XR) : ∃ Q : ℕ → ℍ[ℝ], Q 0 = hq 0 1 0 0 ∧
    (∀ n, fusCompFeed junk 100 (XR.fin 0.02) (Reading.sens ⟨some up, some ![1, 0, 0], 0⟩) (quat (Q n)) = ok (0, quat (Q (n + 1)))) ∧
    Tendsto Q atTop (𝓝 1) := by
  have hn : ‖hq 0 1 0 0‖ = 1 := by rw [norm_quat]; simp
  obtain ⟨Q, h1, h2, -, h3⟩ := comp_settles junk (f := 100) (by norm_num) (t := 0.02) (by norm_num) (by norm_num) (hq 0 1 0 0) (by rw [hn]; norm_num)
    up ![1, 0, 0] (by rw [len_up]; norm_num) (by rw [len_north]; norm_num) (by
      rw [direction_of_norm_one hn, quatAm_rest]; simp [qdot]; norm_num)
  rw [quatAm_rest] at h3
  exact ⟨Q, h1, h2, h3⟩

example (junk : ℕ → XR) : ∃ q', fusCompFeed junk 100 (XR.fin 0.1) (Reading.sens ⟨some up, some ![1, 0, 0], 0⟩) (quat (hq (-4 / 5) (3 / 5) 0 0)) =
    ok (0, quat q') ∧ ‖q'‖ = 1 ∧ |qdot q' 1| < |qdot (hq (-4 / 5) (3 / 5) 0 0) 1| := by
  have hn : ‖hq (-4 / 5) (3 / 5) 0 0‖ = 1 := by rw [norm_quat, Real.sqrt_eq_one]; simp; norm_num
  have := comp_turns_away junk (f := 100) (by norm_num) (t := 0.1) (by norm_num) (by norm_num) _ hn
    up ![1, 0, 0] (by rw [len_up]; norm_num) (by rw [len_north]; norm_num) (by rw [quatAm_rest]; simp [qdot]; norm_num)
    (by rw [quatAm_rest]; simp [qdot]; norm_num)
  rwa [quatAm_rest] at this

/-! ### Vectors tending to a unit vector -/

theorem tendsto_of_dot {v : ℕ → V3} {a : V3} (hv : ∀ n, v n ⬝ᵥ v n = 1) (ha : a ⬝ᵥ a = 1) (h : Tendsto (fun n => v n ⬝ᵥ a) atTop (𝓝 1)) :
    Tendsto v atTop (𝓝 a) := by
  rw [tendsto_pi_nhds]
  intro i
  rw [tendsto_iff_norm_sub_tendsto_zero]
  have h2 : Tendsto (fun n => Real.sqrt (2 - 2 * (v n ⬝ᵥ a))) atTop (𝓝 0) := by
    have h3 : Tendsto (fun n => 2 - 2 * (v n ⬝ᵥ a)) atTop (𝓝 (2 - 2 * 1)) := (h.const_mul 2).const_sub 2
    have := (Real.continuous_sqrt.tendsto _).comp h3
    simpa [Function.comp_def] using this
  refine squeeze_zero (fun _ => norm_nonneg _) (fun n => ?_) h2
  rw [Real.norm_eq_abs]
  apply Real.abs_le_sqrt
  have h4 : (v n - a) ⬝ᵥ (v n - a) = 2 - 2 * (v n ⬝ᵥ a) := by
    rw [sub_dotProduct, dotProduct_sub, dotProduct_sub, hv, ha, dotProduct_comm a]; ring
  rw [← h4, dotProduct, pow_two]
  exact Finset.single_le_sum (f := fun i => (v n - a) i * (v n - a) i) (fun i _ => mul_self_nonneg _) (Finset.mem_univ i)

theorem dot_mem {u v : V3} (hu : u ⬝ᵥ u = 1) (hv : v ⬝ᵥ v = 1) : -1 ≤ u ⬝ᵥ v ∧ u ⬝ᵥ v ≤ 1 := by
  have h1 : 0 ≤ (u + v) ⬝ᵥ (u + v) := Finset.sum_nonneg fun i _ => mul_self_nonneg _
  have h2 : 0 ≤ (u - v) ⬝ᵥ (u - v) := Finset.sum_nonneg fun i _ => mul_self_nonneg _
  rw [add_dotProduct, dotProduct_add, dotProduct_add, hu, hv, dotProduct_comm v] at h1
  rw [sub_dotProduct, dotProduct_sub, dotProduct_sub, hu, hv, dotProduct_comm v] at h2
  constructor <;> linarith

theorem eq_of_dot {u v : V3} (hu : u ⬝ᵥ u = 1) (hv : v ⬝ᵥ v = 1) (h : u ⬝ᵥ v = 1) : u = v := by
  have h2 : (u - v) ⬝ᵥ (u - v) = 0 := by
    rw [sub_dotProduct, dotProduct_sub, dotProduct_sub, hu, hv, dotProduct_comm v, h]; ring
  exact sub_eq_zero.1 (dotProduct_self_eq_zero.1 h2)

theorem turned_direction (q : ℍ[ℝ]) (v : V3) : turned (direction q) v = turned q v := by unfold turned; rw [direction_direction]

/-! ### Mahony -/

theorem cross_sq {a v : V3} (ha : a ⬝ᵥ a = 1) (hv : v ⬝ᵥ v = 1) : (a ⨯₃ v) ⬝ᵥ (a ⨯₃ v) = 1 - (v ⬝ᵥ a) ^ 2 := by
  rw [cross_dot_cross, ha, hv, dotProduct_comm a]; ring

/-- The attitudes and the integral feedback of the Mahony filter at rest. -/
noncomputable def mahnRun (f : ℕ) (incl : Option ℝ) (kp limit : ℝ) (a : V3) (q : ℍ[ℝ]) (fb : V3) : ℕ → ℍ[ℝ] × V3
  | 0 => (q, fb)
  | n + 1 =>
    let x := mahnRun f incl kp limit a q fb n
    (eulerStep f (kp • (unitOf a ⨯₃ turned x.1 up)) x.1, mahnFb f ⟨kp, 0, limit, x.2⟩ (unitOf a ⨯₃ turned x.1 up))

theorem mahn_step {f : ℕ} (hf : 0 < f) {kp : ℝ} {q : ℍ[ℝ]} (hq : 1e-6 ≤ ‖q‖) (a : V3) :
    1 + turned (eulerStep f (kp • (unitOf a ⨯₃ turned q up)) q) up ⬝ᵥ unitOf a =
      (1 + turned q up ⬝ᵥ unitOf a) * (1 - kp / (2 * f) * (1 - turned q up ⬝ᵥ unitOf a)) ^ 2 /
        (1 + (kp / (2 * f)) ^ 2 * (1 - (turned q up ⬝ᵥ unitOf a) ^ 2)) := by
  have hpos : (0 : ℝ) < f := by exact_mod_cast hf
  have hpq : ∀ (t : ℝ) (e : V3), pureQ (t • e) = t • pureQ e := by intro t e; ext <;> simp [pureQ]
  have hm := dot_mem (turned_up_unit hq) (unit_dot a)
  unfold eulerStep
  rw [hpq, smul_smul, turned_step (le_trans (by norm_num) (one_le_norm_rate _ _)) hq, away_key, cross_sq (unit_dot a) (turned_up_unit hq),
    show 1 / (2 * (f : ℝ)) * kp = kp / (2 * f) by ring]
  generalize turned q up ⬝ᵥ unitOf a = c at *
  generalize kp / (2 * (f : ℝ)) = s
  have h0 : 0 < 1 + s ^ 2 * (1 - c ^ 2) := by nlinarith [mul_nonneg (sq_nonneg s) (show 0 ≤ 1 - c ^ 2 by nlinarith)]
  rw [eq_div_iff h0.ne', add_mul, div_mul_cancel₀ _ h0.ne']
  ring

theorem mahn_scalar {s c c0 : ℝ} (h0 : 0 < s) (h1 : s < 1) (hc : -1 ≤ c) (hc1 : c ≤ c0) (h01 : c0 < 1) :
    (1 + c) * (1 - s * (1 - c)) ^ 2 / (1 + s ^ 2 * (1 - c ^ 2)) ≤ max ((1 - 2 * s) ^ 2) ((1 - s * (1 - c0)) ^ 2) * (1 + c) := by
  have hE : 0 ≤ 1 - c ^ 2 := by nlinarith
  have hden : 1 ≤ 1 + s ^ 2 * (1 - c ^ 2) := by nlinarith [mul_nonneg (sq_nonneg s) hE]
  have hnum : 0 ≤ (1 + c) * (1 - s * (1 - c)) ^ 2 := mul_nonneg (by linarith) (sq_nonneg _)
  refine (div_le_self hnum hden).trans ?_
  rw [mul_comm]
  refine mul_le_mul_of_nonneg_right ?_ (by linarith)
  rcases le_total (1 - s * (1 - c)) 0 with h | h
  · refine le_max_of_le_left (sq_le_sq' ?_ ?_ |>.trans_eq (sq_abs _)) <;> rw [abs_of_nonpos (by nlinarith)] <;> nlinarith
  · exact le_max_of_le_right (pow_le_pow_left₀ h (by nlinarith) 2)

theorem mahn_rate_lt {s c0 : ℝ} (h0 : 0 < s) (h1 : s < 1) (hc : -1 ≤ c0) (h01 : c0 < 1) :
    0 ≤ max ((1 - 2 * s) ^ 2) ((1 - s * (1 - c0)) ^ 2) ∧ max ((1 - 2 * s) ^ 2) ((1 - s * (1 - c0)) ^ 2) < 1 := by
  refine ⟨le_max_of_le_left (sq_nonneg _), max_lt ?_ ?_⟩
  · nlinarith
  · have : 0 < s * (1 - c0) := mul_pos h0 (by linarith)
    have : s * (1 - c0) < 2 := by nlinarith
    nlinarith

theorem mahnRun_inv {f : ℕ} (hf : 0 < f) (incl : Option ℝ) {kp limit : ℝ} (hp : 0 < kp) (h2 : kp < 2 * f) (a : V3) {q : ℍ[ℝ]} (fb : V3)
    (hq : 1e-6 ≤ ‖q‖) (he : turned q up ≠ unitOf a) (n : ℕ) :
    1e-6 ≤ ‖(mahnRun f incl kp limit a q fb n).1‖ ∧
      turned (mahnRun f incl kp limit a q fb n).1 up ⬝ᵥ unitOf a ≤ turned q up ⬝ᵥ unitOf a ∧
      1 + turned (mahnRun f incl kp limit a q fb n).1 up ⬝ᵥ unitOf a ≤
        max ((1 - 2 * (kp / (2 * f))) ^ 2) ((1 - kp / (2 * f) * (1 - turned q up ⬝ᵥ unitOf a)) ^ 2) ^ n * (1 + turned q up ⬝ᵥ unitOf a) := by
  have hpos : (0 : ℝ) < f := by exact_mod_cast hf
  have hs : 0 < kp / (2 * f) := by positivity
  have hs1 : kp / (2 * f) < 1 := by rw [div_lt_one (by positivity)]; exact h2
  have hm := dot_mem (turned_up_unit hq) (unit_dot a)
  have hc1 : turned q up ⬝ᵥ unitOf a < 1 := lt_of_le_of_ne hm.2 fun h => he (eq_of_dot (turned_up_unit hq) (unit_dot a) h)
  obtain ⟨r0, r1⟩ := mahn_rate_lt hs hs1 hm.1 hc1
  induction n with
  | zero => exact ⟨hq, le_rfl, by simp [mahnRun]⟩
  | succ n ih =>
    obtain ⟨i1, i2, i3⟩ := ih
    have hmn := dot_mem (turned_up_unit i1) (unit_dot a)
    have hst := mahn_step hf (kp := kp) i1 a
    have hsc := mahn_scalar hs hs1 hmn.1 i2 hc1
    rw [← hst] at hsc
    refine ⟨?_, ?_, ?_⟩
    · show 1e-6 ≤ ‖eulerStep f _ _‖
      rw [norm_eulerStep f _ i1]; norm_num
    · refine le_trans ?_ i2
      change turned (eulerStep f _ _) up ⬝ᵥ unitOf a ≤ _
      have := mul_le_of_le_one_left (show 0 ≤ 1 + turned (mahnRun f incl kp limit a q fb n).1 up ⬝ᵥ unitOf a by linarith) r1.le
      linarith
    · rw [pow_succ', mul_assoc]
      exact hsc.trans (mul_le_mul_of_nonneg_left i3 r0)

/-- C146. The claim fails for the Mahony filter: with the device at rest and the same reading of the accelerometer, from every attitude that
does not already agree exactly, with any proportional gain `0 < kp < 2 freq`, the vertical of the attitude tends to the opposite of the
measured one. -/
theorem mahn_turns_over (junk : ℕ → XR) {f : ℕ} (hf : 0 < f) (incl : Option ℝ) (kp limit : ℝ) (fb : V3) (hp : 0 < kp) (h2 : kp < 2 * f)
    (q : ℍ[ℝ]) (hq : 1e-6 ≤ ‖q‖) (a : V3) (ha : 1e-6 < len a) (he : turned q up ≠ unitOf a) :
    ∃ (Q : ℕ → ℍ[ℝ]) (F : ℕ → V3), Q 0 = q ∧ F 0 = fb ∧
      (∀ n, ∃ s, fusMahnFeed junk f (optFin incl) (Reading.sens ⟨some a, none, 0⟩) (MahnSet.cfg ⟨kp, 0, limit, F n⟩) (quat (Q n)) =
        ok (0, s, MahnSet.cfg ⟨kp, 0, limit, F (n + 1)⟩, quat (Q (n + 1)))) ∧
      Tendsto (fun n => turned (Q n) up) atTop (𝓝 (-unitOf a)) := by
  have inv := mahnRun_inv (limit := limit) hf incl hp h2 a fb hq he
  refine ⟨fun n => (mahnRun f incl kp limit a q fb n).1, fun n => (mahnRun f incl kp limit a q fb n).2, rfl, rfl, fun n => ?_, ?_⟩
  · have h := mahn_feed_correct junk hf incl ⟨kp, 0, limit, (mahnRun f incl kp limit a q fb n).2⟩ hp.le le_rfl _ (inv n).1 a none 0 ha
    have hw : ∀ F q', mahnRate f ⟨kp, 0, limit, F⟩ (mahnErr incl q' a none) 0 = kp • (unitOf a ⨯₃ turned q' up) := by
      intro F q'
      ext i
      simp [mahnRate, mahnErr]
    rw [hw] at h
    exact ⟨_, h⟩
  · have hpos : (0 : ℝ) < f := by exact_mod_cast hf
    have hs : 0 < kp / (2 * f) := by positivity
    have hs1 : kp / (2 * f) < 1 := by rw [div_lt_one (by positivity)]; exact h2
    have hm := dot_mem (turned_up_unit hq) (unit_dot a)
    have hc1 : turned q up ⬝ᵥ unitOf a < 1 := lt_of_le_of_ne hm.2 fun h => he (eq_of_dot (turned_up_unit hq) (unit_dot a) h)
    obtain ⟨r0, r1⟩ := mahn_rate_lt hs hs1 hm.1 hc1
    refine tendsto_of_dot (fun n => turned_up_unit (inv n).1) (by rw [neg_dotProduct, dotProduct_neg, neg_neg, unit_dot]) ?_
    rw [tendsto_iff_norm_sub_tendsto_zero]
    refine squeeze_zero (fun _ => norm_nonneg _) (g := fun n => max ((1 - 2 * (kp / (2 * f))) ^ 2) ((1 - kp / (2 * f) * (1 - turned q up ⬝ᵥ unitOf a)) ^ 2) ^ n *
      (1 + turned q up ⬝ᵥ unitOf a)) (fun n => ?_) ?_
    · have := (dot_mem (turned_up_unit (inv n).1) (unit_dot a)).1
      rw [dotProduct_neg, Real.norm_eq_abs, abs_of_nonpos (by linarith)]
      have := (inv n).2.2
      linarith
    · have := (tendsto_pow_atTop_nhds_zero_of_lt_one r0 r1).mul_const (1 + turned q up ⬝ᵥ unitOf a)
      rwa [zero_mul] at this

/-- Lying on its side and believed upright, a device at rest ends up believed on its other side. -/
example (junk : ℕ → XR) : ∃ (Q : ℕ → ℍ[ℝ]) (F : ℕ → V3), Q 0 = 1 ∧ F 0 = 0 ∧
    (∀ n, ∃ s, fusMahnFeed junk 100 (optFin none) (Reading.sens ⟨some ![1, 0, 0], none, 0⟩) (MahnSet.cfg ⟨0.2, 0, 1, F n⟩) (quat (Q n)) =
      ok (0, s, MahnSet.cfg ⟨0.2, 0, 1, F (n + 1)⟩, quat (Q (n + 1)))) ∧
    Tendsto (fun n => turned (Q n) up) atTop (𝓝 (-![1, 0, 0])) := by
  have := mahn_turns_over junk (f := 100) (by norm_num) none 0.2 1 0 (by norm_num) (by norm_num) 1 (by norm_num) ![1, 0, 0]
    (by rw [len_north]; norm_num) (by
      rw [turned_one, unitOf_of_len len_north]
      intro h
      have := congrFun h 0
      simp [up] at this)
  rwa [unitOf_of_len len_north] at this

/-! ### AQUA -/

theorem toward_exact {v : V3} (h1 : v 0 ^ 2 + v 1 ^ 2 + v 2 ^ 2 = 1) (h : -1 < v 2) {x y : ℝ}
    {b : ℍ[ℝ]} (hb : b = x • 1 + y • accQ v) (nb : ‖b‖ = 1) : turned b up ⬝ᵥ v = 2 * (x * Real.sqrt ((v 2 + 1) / 2) + y) ^ 2 - 1 := by
  have hs : 0 < Real.sqrt (2 * (v 2 + 1)) := Real.sqrt_pos.2 (by linarith)
  have hq' : Real.sqrt ((v 2 + 1) / 2) = Real.sqrt (2 * (v 2 + 1)) / 2 := by
    rw [show (v 2 + 1) / 2 = 2 * (v 2 + 1) / 2 ^ 2 by ring, Real.sqrt_div (by linarith), Real.sqrt_sq (by norm_num)]
  have h2 := Real.mul_self_sqrt (show 0 ≤ 2 * (v 2 + 1) by linarith)
  have ub := unit_eq nb
  unfold turned
  rw [direction_of_norm_one nb, star_of_norm nb]
  have b0 : b.re = x + y * (Real.sqrt (2 * (v 2 + 1)) / 2) := by rw [hb, ← hq']; simp [accQ]
  have b1 : b.imI = y * (-v 1 / Real.sqrt (2 * (v 2 + 1))) := by rw [hb]; simp [accQ]
  have b2 : b.imJ = y * (v 0 / Real.sqrt (2 * (v 2 + 1))) := by rw [hb]; simp [accQ]
  have b3 : b.imK = 0 := by rw [hb]; simp [accQ]
  rw [hq']
  simp only [dotProduct, Fin.sum_univ_three, pureQ, up, Matrix.cons_val_zero, Matrix.cons_val_one, Matrix.cons_val,
    Quaternion.re_mul, Quaternion.imI_mul, Quaternion.imJ_mul, Quaternion.imK_mul, hq_re, hq_imI, hq_imJ, hq_imK,
    Quaternion.re_star, Quaternion.imI_star, Quaternion.imJ_star, Quaternion.imK_star]
  rw [b0, b1, b2, b3] at ub ⊢
  generalize Real.sqrt (2 * (v 2 + 1)) = s at *
  generalize v 0 = v0 at *
  generalize v 1 = v1 at *
  generalize v 2 = v2 at *
  have hv2 : v2 = s * s / 2 - 1 := by linarith
  have hne : s ≠ 0 := hs.ne'
  have hh : v0 ^ 2 + v1 ^ 2 = s * s * (1 - s * s / 4) := by rw [hv2] at h1; linarith
  have e1 : x ^ 2 + y ^ 2 + x * y * s = 1 := by
    field_simp at ub
    have : s ^ 2 * (x ^ 2 + y ^ 2 + x * y * s - 1) = 0 := by grind
    have := (mul_eq_zero.1 this).resolve_left (by positivity)
    linarith
  rw [hv2]
  field_simp
  grind

/-- Half the angle shrinks: the part `t` of the rotation `d`, in the plane of 1 and `d`, leaves at most the part `1 - t` of `1 - cos`. -/
theorem blend_rate {eps t : ℝ} (he : eps ≤ 1 - 1e-6) (h0 : 0 < t) (h1 : t ≤ 1) {d : ℍ[ℝ]} (hd : ‖d‖ = 1) (hr : 0 ≤ d.re) :
    ∃ x y : ℝ, blend eps t d = x • 1 + y • d ∧ 0 ≤ x * d.re + y ∧ 1 - (x * d.re + y) ≤ (1 - t) * (1 - d.re) := by
  have hd1 : d.re ≤ 1 := by have := unit_eq hd; nlinarith [sq_nonneg d.imI, sq_nonneg d.imJ, sq_nonneg d.imK]
  unfold blend
  by_cases c1 : eps < d.re
  · rw [if_pos c1]
    have n1 : ‖(1 : ℍ[ℝ])‖ = 1 := by simp
    have hq1 : qdot 1 d = d.re := qdot_one d
    have hsq := mix_norm_sq n1 hd t
    rw [hq1] at hsq
    have hN0 := norm_nonneg ((1 - t) • (1 : ℍ[ℝ]) + t • d)
    unfold direction
    generalize ‖(1 - t) • (1 : ℍ[ℝ]) + t • d‖ = N at *
    have hlo : (1 / 4 : ℝ) ≤ N ^ 2 := by rw [hsq]; nlinarith [mul_nonneg (mul_nonneg h0.le (sub_nonneg.2 h1)) hr, sq_nonneg (2 * t - 1)]
    have hN : 1 / 2 ≤ N := by nlinarith
    have hN1 : N ≤ 1 := by nlinarith [mul_nonneg (mul_nonneg h0.le (sub_nonneg.2 h1)) (sub_nonneg.2 hd1)]
    rw [if_neg (by rw [not_lt]; exact le_trans (by norm_num) hN)]
    have hA : 0 ≤ (1 - t) * d.re + t := add_nonneg (mul_nonneg (by linarith) hr) h0.le
    have e : N⁻¹ * (1 - t) * d.re + N⁻¹ * t = ((1 - t) * d.re + t) / N := by rw [div_eq_inv_mul]; ring
    refine ⟨N⁻¹ * (1 - t), N⁻¹ * t, by rw [smul_add, smul_smul, smul_smul], by rw [e]; positivity, ?_⟩
    rw [e]
    have : (1 - t) * d.re + t ≤ ((1 - t) * d.re + t) / N := by rw [le_div_iff₀ (by linarith)]; nlinarith
    linarith
  · rw [if_neg c1, if_neg h0.ne']
    by_cases c2 : t = 1
    · rw [if_pos c2]
      exact ⟨0, 1, by simp, by simp, by subst c2; simp⟩
    · have hle : d.re ≤ 1 - 1e-6 := (not_lt.1 c1).trans he
      rw [if_neg c2, if_neg (by rw [abs_of_nonpos (by linarith)]; linarith)]
      have hth0 := Real.arccos_nonneg d.re
      have hth1 : Real.arccos d.re ≤ Real.pi / 2 := Real.arccos_le_pi_div_two.2 hr
      have hcos : Real.cos (Real.arccos d.re) = d.re := Real.cos_arccos (by linarith) hd1
      have hsin : 0 < Real.sin (Real.arccos d.re) := by
        rw [Real.sin_arccos]
        apply Real.sqrt_pos.2
        nlinarith
      have e : Real.sin (Real.arccos d.re * (1 - t)) / Real.sin (Real.arccos d.re) * d.re + Real.sin (Real.arccos d.re * t) / Real.sin (Real.arccos d.re) =
          Real.cos (Real.arccos d.re * (1 - t)) := by
        have h3 : Real.sin (Real.arccos d.re * t) = Real.sin (Real.arccos d.re - Real.arccos d.re * (1 - t)) := by congr 1; ring
        rw [h3, Real.sin_sub, hcos]
        field_simp
        ring
      have hpi := Real.pi_pos
      have hlow : 0 ≤ Real.arccos d.re * (1 - t) := mul_nonneg hth0 (by linarith)
      have hup : Real.arccos d.re * (1 - t) ≤ Real.pi / 2 := by nlinarith
      refine ⟨_, _, rfl, ?_, ?_⟩
      · rw [e]
        exact Real.cos_nonneg_of_neg_pi_div_two_le_of_le (by linarith) hup
      · rw [e]
        have hconc := strictConcaveOn_cos_Icc.concaveOn.2 (show Real.arccos d.re ∈ Set.Icc (-(Real.pi / 2)) (Real.pi / 2) from ⟨by linarith, hth1⟩)
          (show (0 : ℝ) ∈ Set.Icc (-(Real.pi / 2)) (Real.pi / 2) from ⟨by linarith, by linarith⟩) (show 0 ≤ 1 - t by linarith) h0.le (by ring)
        simp only [smul_eq_mul, Real.cos_zero, mul_zero, add_zero, mul_one, hcos] at hconc
        rw [mul_comm (Real.arccos d.re)]
        linarith

/-- The cosine of half the angle between the measured vertical and the one of the attitude. -/
noncomputable def halfCos (q : ℍ[ℝ]) (a : V3) : ℝ := Real.sqrt ((turned q up ⬝ᵥ unitOf a + 1) / 2)

theorem seen_two {p : ℍ[ℝ]} (hp : ‖p‖ = 1) (a : V3) : seen p a 2 = turned p up ⬝ᵥ unitOf a := by
  have h3 : unitOf a = turned p (seen p a) := (turned_inv hp _).symm
  conv_rhs => rw [h3]
  rw [turned_dot hp]
  simp [up, dotProduct, Fin.sum_univ_three]

theorem aqua_step {eps t : ℝ} (he : eps ≤ 1 - 1e-6) (h0 : 0 < t) (h1 : t ≤ 1) {p : ℍ[ℝ]} (hp : ‖p‖ = 1) (a : V3) (hs : turned p up ≠ -unitOf a) :
    seen p a ≠ -up ∧ turned (aquaAcc eps t a p) up ≠ -unitOf a ∧ 1 - halfCos (aquaAcc eps t a p) a ≤ (1 - t) * (1 - halfCos p a) := by
  have hp6 : 1e-6 ≤ ‖p‖ := by rw [hp]; norm_num
  have hm := dot_mem (turned_up_unit hp6) (unit_dot a)
  have hgt : -1 < turned p up ⬝ᵥ unitOf a := by
    refine lt_of_le_of_ne hm.1 fun h => hs ?_
    refine eq_of_dot (turned_up_unit hp6) (by rw [neg_dotProduct, dotProduct_neg, neg_neg, unit_dot]) ?_
    rw [dotProduct_neg, ← h, neg_neg]
  have h2 := seen_two hp a
  have hseen : seen p a ≠ -up := by
    intro h
    have h3 : (-up) 2 = -1 := by simp [up]
    rw [h, h3] at h2
    linarith
  have hv : -1 < seen p a 2 := by rw [h2]; exact hgt
  obtain ⟨n1, n2, n3⟩ := accQ_spec (seen_len hp a) hv
  obtain ⟨x, y, hb, hn, hrate⟩ := blend_rate he h0 h1 n1 n2
  have nb := (aquaApply_quat (fun _ => XR.nan) eps t h0.le h1 (accQ (seen p a)) p n1 n2).2
  have hex := toward_exact (seen_len hp a) hv hb nb
  have hre : (accQ (seen p a)).re = Real.sqrt ((seen p a 2 + 1) / 2) := rfl
  rw [hre] at hn hrate
  have h3 : unitOf a = turned p (seen p a) := (turned_inv hp _).symm
  have hdot : turned (aquaAcc eps t a p) up ⬝ᵥ unitOf a = 2 * (x * Real.sqrt ((seen p a 2 + 1) / 2) + y) ^ 2 - 1 := by
    unfold aquaAcc
    rw [turned_mul hp nb, ← hex]
    conv_lhs => rw [h3]
    rw [turned_dot hp]
  have hnew : halfCos (aquaAcc eps t a p) a = x * Real.sqrt ((seen p a 2 + 1) / 2) + y := by
    unfold halfCos
    rw [hdot, show (2 * (x * Real.sqrt ((seen p a 2 + 1) / 2) + y) ^ 2 - 1 + 1) / 2 = (x * Real.sqrt ((seen p a 2 + 1) / 2) + y) ^ 2 by ring, Real.sqrt_sq hn]
  have hold : halfCos p a = Real.sqrt ((seen p a 2 + 1) / 2) := by unfold halfCos; rw [h2]
  refine ⟨hseen, ?_, by rw [hnew, hold]; exact hrate⟩
  intro h
  rw [h, neg_dotProduct, unit_dot] at hdot
  have hz : x * Real.sqrt ((seen p a 2 + 1) / 2) + y = 0 := by nlinarith
  rw [hz] at hrate
  have hsp : 0 < Real.sqrt ((seen p a 2 + 1) / 2) := Real.sqrt_pos.2 (by linarith)
  nlinarith

/-- The attitudes of AQUA at rest. -/
noncomputable def aquaRun (eps t : ℝ) (a : V3) (q : ℍ[ℝ]) : ℕ → ℍ[ℝ]
  | 0 => q
  | n + 1 => aquaAcc eps t a (direction (aquaRun eps t a q n))

theorem norm_aquaAcc {eps t : ℝ} (h0 : 0 ≤ t) (h1 : t ≤ 1) (a : V3) {p : ℍ[ℝ]} (hp : ‖p‖ = 1) (h : seen p a ≠ -up) : ‖aquaAcc eps t a p‖ = 1 :=
  (aquaAcc_code (fun _ => XR.nan) eps t h0 h1 a hp h).2

theorem aquaRun_inv {eps t : ℝ} (he : eps ≤ 1 - 1e-6) (h0 : 0 < t) (h1 : t ≤ 1) (a : V3) {q : ℍ[ℝ]} (hq : 1e-6 ≤ ‖q‖) (hs : turned q up ≠ -unitOf a) (n : ℕ) :
    1e-6 ≤ ‖aquaRun eps t a q n‖ ∧ turned (aquaRun eps t a q n) up ≠ -unitOf a ∧
      1 - halfCos (aquaRun eps t a q n) a ≤ (1 - t) ^ n * (1 - halfCos q a) := by
  induction n with
  | zero => exact ⟨hq, hs, by simp [aquaRun]⟩
  | succ n ih =>
    obtain ⟨i1, i2, i3⟩ := ih
    obtain ⟨s1, s2, s3⟩ := aqua_step he h0 h1 (norm_direction i1) a (by rwa [turned_direction])
    refine ⟨?_, s2, ?_⟩
    · unfold aquaRun
      rw [norm_aquaAcc h0.le h1 a (norm_direction i1) s1]
      norm_num
    · rw [pow_succ', mul_assoc]
      refine s3.trans (mul_le_mul_of_nonneg_left ?_ (by linarith))
      rw [show halfCos (direction (aquaRun eps t a q n)) a = halfCos (aquaRun eps t a q n) a by unfold halfCos; rw [turned_direction]]
      exact i3

/-- C146. With the device at rest and the same reading of the accelerometer, the vertical of AQUA's attitude tends to the measured one, at the
geometric rate `1 - alpha`, from every attitude whose vertical is not exactly opposite (for thresholds up to `1 - 1e-6`; the default is 0.9). -/
theorem aqua_settles (junk : ℕ → XR) {f : ℕ} (hf : 0 < f) {c : AquaR} (hc : c.Valid) (hal : 0 < c.alpha) (hea : c.ea ≤ 1 - 1e-6)
    (q : ℍ[ℝ]) (hq : 1e-6 ≤ ‖q‖) (a : V3) (ha : 1e-6 < len a) (hs : turned q up ≠ -unitOf a) :
    ∃ Q : ℕ → ℍ[ℝ], Q 0 = q ∧
      (∀ n, ∃ s, fusAquaFeed junk f true c.cfg (Reading.sens ⟨some a, none, 0⟩) (quat (Q n)) = ok (0, s, c.cfg, quat (Q (n + 1)), true)) ∧
      (∀ n, 1 - turned (Q n) up ⬝ᵥ unitOf a ≤ 4 * (1 - c.alpha) ^ n) ∧
      Tendsto (fun n => turned (Q n) up) atTop (𝓝 (unitOf a)) := by
  have inv := aquaRun_inv hea hal hc.2.1 a hq hs
  have hrest : ∀ p, aquaGyro f p 0 = direction p := by
    intro p
    unfold aquaGyro
    rw [show (fun i => (0 : V3) i * -1) = 0 by ext i; simp, eulerStep_rest]
  have hb : ∀ n, 1 - turned (aquaRun c.ea c.alpha a q n) up ⬝ᵥ unitOf a ≤ 4 * (1 - c.alpha) ^ n := by
    intro n
    obtain ⟨i1, i2, i3⟩ := inv n
    have hm := dot_mem (turned_up_unit i1) (unit_dot a)
    have hh : halfCos (aquaRun c.ea c.alpha a q n) a ^ 2 = (turned (aquaRun c.ea c.alpha a q n) up ⬝ᵥ unitOf a + 1) / 2 :=
      Real.sq_sqrt (by linarith)
    have hh0 : 0 ≤ halfCos (aquaRun c.ea c.alpha a q n) a := Real.sqrt_nonneg _
    have hh1 : halfCos (aquaRun c.ea c.alpha a q n) a ≤ 1 := by nlinarith
    have hk0 : 0 ≤ halfCos q a := Real.sqrt_nonneg _
    have hp0 : 0 ≤ (1 - c.alpha) ^ n := pow_nonneg (by linarith [hc.2.1]) n
    have : (1 - c.alpha) ^ n * (1 - halfCos q a) ≤ (1 - c.alpha) ^ n := mul_le_of_le_one_right hp0 (by linarith)
    nlinarith
  refine ⟨aquaRun c.ea c.alpha a q, rfl, fun n => ?_, hb, ?_⟩
  · obtain ⟨i1, i2, i3⟩ := inv n
    obtain ⟨s1, -, -⟩ := aqua_step hea hal hc.2.1 (norm_direction i1) a (by rwa [turned_direction])
    obtain ⟨q', e, e', -⟩ := aqua_feed_acc junk hf hc true _ i1 a 0 none ha (by simp) (by rw [hrest]; exact s1)
    rw [hrest] at e'
    exact ⟨_, by rw [e, e']; rfl⟩
  · refine tendsto_of_dot (fun n => turned_up_unit (inv n).1) (unit_dot a) ?_
    rw [tendsto_iff_norm_sub_tendsto_zero]
    refine squeeze_zero (fun _ => norm_nonneg _) (g := fun n => 4 * (1 - c.alpha) ^ n) (fun n => ?_) ?_
    · rw [Real.norm_eq_abs, abs_of_nonpos (by linarith [(dot_mem (turned_up_unit (inv n).1) (unit_dot a)).2])]
      linarith [hb n]
    · have := (tendsto_pow_atTop_nhds_zero_of_lt_one (show 0 ≤ 1 - c.alpha by linarith [hc.2.1]) (by linarith)).const_mul 4
      rwa [mul_zero] at this

/-- C146. With a threshold of 1 or more AQUA stops short: once the cosine of half the angle between the verticals exceeds `1 - 1e-6`, a feed at
rest only normalises the attitude, for every gain below 1. -/
theorem aqua_stops_short (junk : ℕ → XR) {f : ℕ} (hf : 0 < f) {c : AquaR} (hc : c.Valid) (hal : c.alpha < 1) (hea : 1 ≤ c.ea)
    (q : ℍ[ℝ]) (hq : 1e-6 ≤ ‖q‖) (a : V3) (ha : 1e-6 < len a) (hs : 1 - 1e-6 < Real.sqrt ((1 + turned q up ⬝ᵥ unitOf a) / 2)) :
    ∃ s, fusAquaFeed junk f true c.cfg (Reading.sens ⟨some a, none, 0⟩) (quat q) = ok (0, s, c.cfg, quat (direction q), true) := by
  have hrest : aquaGyro f q 0 = direction q := by
    unfold aquaGyro
    rw [show (fun i => (0 : V3) i * -1) = 0 by ext i; simp, eulerStep_rest]
  have hp := norm_direction hq
  have h2 : seen (direction q) a 2 = turned q up ⬝ᵥ unitOf a := by rw [seen_two hp, turned_direction]
  have hpos : 0 < (1 + turned q up ⬝ᵥ unitOf a) / 2 := Real.sqrt_pos.1 (lt_trans (by norm_num) hs)
  have hseen : seen (direction q) a ≠ -up := by
    intro h
    have h3 : (-up) 2 = -1 := by simp [up]
    rw [h, h3] at h2
    linarith
  obtain ⟨q', e, e', -⟩ := aqua_feed_acc junk hf hc true q hq a 0 none ha (by simp) (by rw [hrest]; exact hseen)
  have hre : (accQ (seen (direction q) a)).re = Real.sqrt ((1 + turned q up ⬝ᵥ unitOf a) / 2) := by
    show Real.sqrt ((seen (direction q) a 2 + 1) / 2) = _
    rw [h2, add_comm]
  have hm := dot_mem (turned_up_unit hq) (unit_dot a)
  have h1 : Real.sqrt ((1 + turned q up ⬝ᵥ unitOf a) / 2) ≤ 1 := by rw [Real.sqrt_le_one]; linarith
  have hbl : blend c.ea c.alpha (accQ (seen (direction q) a)) = 1 := by
    unfold blend
    rw [hre, if_neg (by linarith)]
    by_cases h0 : c.alpha = 0
    · rw [if_pos h0]
    · rw [if_neg h0, if_neg hal.ne, if_pos (by rw [abs_of_nonpos (by linarith)]; linarith)]
  have hq' : q' = direction q := by
    rw [e', hrest]
    show direction q * blend c.ea c.alpha (accQ (seen (direction q) a)) = _
    rw [hbl, mul_one]
  exact ⟨_, by rw [e, hq']; rfl⟩

/-- Lying on its side and believed upright, with the gain 0.01 and the default threshold. -/
example (junk : ℕ → XR) : ∃ Q : ℕ → ℍ[ℝ], Q 0 = 1 ∧
    (∀ n, ∃ s, fusAquaFeed junk 100 true (AquaR.cfg ⟨0.01, 0.01, 0.9, 0.9⟩) (Reading.sens ⟨some ![1, 0, 0], none, 0⟩) (quat (Q n)) =
      ok (0, s, AquaR.cfg ⟨0.01, 0.01, 0.9, 0.9⟩, quat (Q (n + 1)), true)) ∧
    Tendsto (fun n => turned (Q n) up) atTop (𝓝 ![1, 0, 0]) := by
  obtain ⟨Q, h1, h2, -, h3⟩ := aqua_settles junk (f := 100) (by norm_num) (c := ⟨0.01, 0.01, 0.9, 0.9⟩) (by unfold AquaR.Valid; norm_num) (by norm_num)
    (by norm_num) 1 (by norm_num) ![1, 0, 0] (by rw [len_north]; norm_num) (by
      rw [turned_one, unitOf_of_len len_north]
      intro h
      have := congrFun h 0
      simp [up] at this)
  rw [unitOf_of_len len_north] at h3
  exact ⟨Q, h1, h2, h3⟩

/-! ### Attitudes that already agree -/

/-- C146. Mahony, with the integral part off, keeps an attitude whose vertical is the measured one. -/
theorem mahn_keeps (junk : ℕ → XR) {f : ℕ} (hf : 0 < f) (incl : Option ℝ) (kp limit : ℝ) (fb : V3) (hp : 0 ≤ kp)
    (q : ℍ[ℝ]) (hq : 1e-6 ≤ ‖q‖) (a : V3) (ha : 1e-6 < len a) (he : turned q up = unitOf a) :
    ∃ s c, fusMahnFeed junk f (optFin incl) (Reading.sens ⟨some a, none, 0⟩) (MahnSet.cfg ⟨kp, 0, limit, fb⟩) (quat q) = ok (0, s, c, quat (direction q)) := by
  have h := mahn_feed_correct junk hf incl ⟨kp, 0, limit, fb⟩ hp le_rfl q hq a none 0 ha
  have hw : mahnRate f ⟨kp, 0, limit, fb⟩ (mahnErr incl q a none) 0 = 0 := by
    ext i
    simp [mahnRate, mahnErr, he]
  rw [hw, eulerStep_rest] at h
  exact ⟨_, _, h⟩

/-- C146. AQUA, with any gain and threshold, keeps an attitude whose vertical is the measured one. -/
theorem aqua_keeps (junk : ℕ → XR) {f : ℕ} (hf : 0 < f) {c : AquaR} (hc : c.Valid)
    (q : ℍ[ℝ]) (hq : 1e-6 ≤ ‖q‖) (a : V3) (ha : 1e-6 < len a) (he : turned q up = unitOf a) :
    ∃ s, fusAquaFeed junk f true c.cfg (Reading.sens ⟨some a, none, 0⟩) (quat q) = ok (0, s, c.cfg, quat (direction q), true) := by
  have hrest : aquaGyro f q 0 = direction q := by
    unfold aquaGyro
    rw [show (fun i => (0 : V3) i * -1) = 0 by ext i; simp, eulerStep_rest]
  have hp := norm_direction hq
  have hs : seen (direction q) a = up := by
    unfold seen
    rw [← he, ← turned_direction q, turned_inv' hp]
  have h1 : accQ (seen (direction q) a) = 1 := by
    rw [hs]
    ext <;> simp [accQ, up]
  obtain ⟨q', e, e', -⟩ := aqua_feed_acc junk hf hc true q hq a 0 none ha (by simp) (by
    rw [hrest, hs]
    intro h
    have := congrFun h 2
    simp [up] at this
    linarith)
  have hbl : blend c.ea c.alpha 1 = 1 := by
    unfold blend
    have n1 : direction ((1 - c.alpha) • (1 : ℍ[ℝ]) + c.alpha • 1) = 1 := by
      rw [← add_smul, sub_add_cancel, one_smul]
      exact direction_of_norm_one (by simp)
    rw [n1]
    simp
    intros
    norm_num
  have hq' : q' = direction q := by
    rw [e', hrest]
    show direction q * blend c.ea c.alpha (accQ (seen (direction q) a)) = _
    rw [h1, hbl, mul_one]
  exact ⟨_, by rw [e, hq']; rfl⟩

/-- C146. The Madgwick filter does not keep an attitude that agrees with the reading: the gradient is zero, its "direction" is the first
unit vector, and the filter steps against that. For every gain and every attitude other than the identity the orientation changes. -/
theorem madg_not_kept (junk : ℕ → XR) {f : ℕ} (hf : 0 < f) (incl : Option ℝ) (beta : ℝ) (hb : 0 < beta)
    (q : ℍ[ℝ]) (hq : ‖q‖ = 1) (hq1 : q ≠ 1) (hq2 : q ≠ -1) (a : V3) (ha : 1e-6 < len a) (he : turned q up = unitOf a) :
    ∃ s q', fusMadgFeed junk f (optFin incl) (XR.fin beta) (Reading.sens ⟨some a, none, 0⟩) (quat q) = ok (0, s, quat q') ∧
      q' = direction (q - (beta / f) • 1) ∧ q' ≠ q ∧ q' ≠ -q := by
  have hpos : (0 : ℝ) < f := by exact_mod_cast hf
  have hq6 : 1e-6 ≤ ‖q‖ := by rw [hq]; norm_num
  have h := madg_feed_correct junk hf incl beta hb.le q hq6 a none 0 ha
  have hz : madgDir incl q a none = Pi.single 0 1 := by
    show unitOf (jacG q *ᵥ (turned q up - unitOf a)) = _
    rw [he, sub_self, Matrix.mulVec_zero, unitOf, if_pos rfl]
  have h1 : quat4 (Pi.single 0 1) = 1 := by ext <;> simp [quat4]
  rw [direction_of_norm_one hq, hz, madgStep, eulerStep_rest, direction_of_norm_one hq, h1, show 1 / (f : ℝ) * beta = beta / f by ring] at h
  have hs : 0 < beta / f := by positivity
  have hu := unit_eq hq
  have him : q.imI ≠ 0 ∨ q.imJ ≠ 0 ∨ q.imK ≠ 0 := by
    by_contra hh
    push Not at hh
    obtain ⟨e1, e2, e3⟩ := hh
    rw [e1, e2, e3] at hu
    have : q.re = 1 ∨ q.re = -1 := by
      have : (q.re - 1) * (q.re + 1) = 0 := by linarith
      rcases mul_eq_zero.1 this with h | h
      · left; linarith
      · right; linarith
    rcases this with h | h
    · exact hq1 (by ext <;> simp [h, e1, e2, e3])
    · exact hq2 (by ext <;> simp [h, e1, e2, e3])
  refine ⟨_, _, h, rfl, ?_⟩
  generalize beta / (f : ℝ) = s at hs
  unfold direction
  by_cases hn : ‖q - s • (1 : ℍ[ℝ])‖ < 1e-6
  · rw [if_pos hn]
    have h0 : q ≠ 0 := by rintro rfl; simp at hq
    exact ⟨h0.symm, fun h => h0 (by rw [← neg_neg q, ← h, neg_zero])⟩
  · rw [if_neg hn]
    have hk : 0 < ‖q - s • (1 : ℍ[ℝ])‖⁻¹ := inv_pos.2 (lt_of_lt_of_le (by norm_num) (not_lt.1 hn))
    generalize ‖q - s • (1 : ℍ[ℝ])‖⁻¹ = k at hk
    constructor
    · intro e
      have a0 := congrArg (·.re) e
      have a1 := congrArg (·.imI) e
      have a2 := congrArg (·.imJ) e
      have a3 := congrArg (·.imK) e
      simp at a0 a1 a2 a3
      have hk1 : k = 1 := by
        rcases him with h | h | h
        · exact mul_right_cancel₀ h (a1.trans (one_mul _).symm)
        · exact mul_right_cancel₀ h (a2.trans (one_mul _).symm)
        · exact mul_right_cancel₀ h (a3.trans (one_mul _).symm)
      rw [hk1] at a0
      linarith
    · intro e
      have a1 := congrArg (·.imI) e
      have a2 := congrArg (·.imJ) e
      have a3 := congrArg (·.imK) e
      simp at a1 a2 a3
      have : ∀ x : ℝ, k * x = -x → x = 0 := by
        intro x hx
        have : (k + 1) * x = 0 := by linarith
        exact (mul_eq_zero.1 this).resolve_left (by linarith)
      rcases him with h | h | h
      · exact h (this _ a1)
      · exact h (this _ a2)
      · exact h (this _ a3)

/-- A level device, turned by some angle about the vertical. -/
example (junk : ℕ → XR) : ∃ s q', fusMadgFeed junk 100 (optFin none) (XR.fin 0.1) (Reading.sens ⟨some up, none, 0⟩) (quat (hq (4 / 5) 0 0 (3 / 5))) =
    ok (0, s, quat q') ∧ q' = direction (hq (4 / 5) 0 0 (3 / 5) - (0.1 / (100 : ℕ) : ℝ) • 1) ∧ q' ≠ hq (4 / 5) 0 0 (3 / 5) ∧ q' ≠ -hq (4 / 5) 0 0 (3 / 5) := by
  have hn : ‖hq (4 / 5) 0 0 (3 / 5)‖ = 1 := by rw [norm_quat, Real.sqrt_eq_one]; simp; norm_num
  refine madg_not_kept junk (by norm_num) none 0.1 (by norm_num) _ hn ?_ ?_ up (by rw [len_up]; norm_num) ?_
  · intro h; have := congrArg (·.imK) h; simp at this
  · intro h; have := congrArg (·.imK) h; simp at this
  · rw [unitOf_of_len len_up]
    apply pureQ_inj
    rw [turned_unit hn, star_of_norm hn]
    ext <;> simp [pureQ, up, Quaternion.re_mul, Quaternion.imI_mul, Quaternion.imJ_mul, Quaternion.imK_mul] <;> norm_num

end Verif
