import Verif.Props.FusMadg2

/-!
# C153: the sign of a small step of the Madgwick filter, from every attitude of a level device
-/

namespace Verif

open Quaternion Matrix Out Real

/-- The vertical of any unit attitude. -/
theorem turned_up {q : ℍ[ℝ]} (h : ‖q‖ = 1) :
    turned q up = ![2 * (q.imI * q.imK + q.re * q.imJ), 2 * (q.imJ * q.imK - q.re * q.imI), 1 - 2 * (q.imI ^ 2 + q.imJ ^ 2)] := by
  have hu := unit_eq h
  apply turned_of_comm h
  ext
  · simp [up, pureQ]; ring
  · simp [up, pureQ]; linear_combination (-2 * q.imJ) * hu
  · simp [up, pureQ]; linear_combination (2 * q.imI) * hu
  · simp [up, pureQ]; ring

theorem up_cos {q : ℍ[ℝ]} (h : ‖q‖ = 1) {g : ℝ} (hg : 0 < g) :
    turned q up ⬝ᵥ unitOf ![0, 0, g] = 1 - 2 * (q.imI ^ 2 + q.imJ ^ 2) := by
  rw [unitOf_level hg, turned_up h]
  simp [up, dotProduct, Fin.sum_univ_three]

/-- The vector the filter steps along, for a level reading. -/
def levelGrad (q : ℍ[ℝ]) : Fin 4 → ℝ :=
  ![-4 * q.re * (q.imI ^ 2 + q.imJ ^ 2),
    4 * q.imI * (q.imK ^ 2 - q.re ^ 2 + 2 * (q.imI ^ 2 + q.imJ ^ 2)) + 8 * q.re * q.imJ * q.imK,
    4 * q.imJ * (q.imK ^ 2 - q.re ^ 2 + 2 * (q.imI ^ 2 + q.imJ ^ 2)) - 8 * q.re * q.imI * q.imK,
    4 * q.imK * (q.imI ^ 2 + q.imJ ^ 2)]

theorem jacG_level {q : ℍ[ℝ]} (h : ‖q‖ = 1) : jacG q *ᵥ (turned q up - up) = levelGrad q := by
  rw [turned_up h]
  ext i
  fin_cases i <;> simp [jacG, levelGrad, up, Matrix.mulVec, dotProduct, Fin.sum_univ_three] <;> ring

/-- What decides the sign of the step. -/
def stepSign (q : ℍ[ℝ]) : ℝ :=
  4 * (q.imI ^ 2 + q.imJ ^ 2) * (2 * q.re ^ 2 * (1 - 2 * (q.imI ^ 2 + q.imJ ^ 2)) - (q.re ^ 2 + q.imK ^ 2))

theorem stepSign_eq {q : ℍ[ℝ]} (h : ‖q‖ = 1) :
    (q.imI ^ 2 + q.imJ ^ 2) * (q.re * levelGrad q 0 + q.imI * levelGrad q 1 + q.imJ * levelGrad q 2 + q.imK * levelGrad q 3) -
      (q.imI * levelGrad q 1 + q.imJ * levelGrad q 2) = stepSign q := by
  have hu := unit_eq h
  simp only [levelGrad, stepSign]
  simp
  have hk : q.imK ^ 2 = 1 - q.re ^ 2 - q.imI ^ 2 - q.imJ ^ 2 := by linarith
  ring_nf
  simp only [show q.imK ^ 2 = 1 - q.re ^ 2 - q.imI ^ 2 - q.imJ ^ 2 from hk]
  ring

/-- The squared sine of half the tilt after a step of length `s` along the unit vector `d`. -/
theorem tilt_after {q : ℍ[ℝ]} (h : ‖q‖ = 1) (d : Fin 4 → ℝ) (hd : d ⬝ᵥ d = 1) {s : ℝ} (h0 : 0 < s) (h1 : s < 1 / 2) {g : ℝ} (hg : 0 < g) :
    0 < 1 - 2 * s * (q.re * d 0 + q.imI * d 1 + q.imJ * d 2 + q.imK * d 3) + s ^ 2 ∧
    turned (direction (q - s • quat4 d)) up ⬝ᵥ unitOf ![0, 0, g] = 1 - 2 * (((q.imI - s * d 1) ^ 2 + (q.imJ - s * d 2) ^ 2) /
      (1 - 2 * s * (q.re * d 0 + q.imI * d 1 + q.imJ * d 2 + q.imK * d 3) + s ^ 2)) := by
  have hu := unit_eq h
  have hd' : d 0 ^ 2 + d 1 ^ 2 + d 2 ^ 2 + d 3 ^ 2 = 1 := by
    rw [← hd]
    simp [dotProduct, Fin.sum_univ_four]
    ring
  have hn : ‖q - s • quat4 d‖ ^ 2 = 1 - 2 * s * (q.re * d 0 + q.imI * d 1 + q.imJ * d 2 + q.imK * d 3) + s ^ 2 := by
    rw [norm_sq_quat]
    simp [quat4]
    linear_combination hu + s ^ 2 * hd'
  have hq4 : ‖quat4 d‖ = 1 := by
    have : ‖quat4 d‖ ^ 2 = 1 := by
      rw [norm_sq_quat]
      simpa [quat4] using hd'
    nlinarith [norm_nonneg (quat4 d)]
  have hlow : 1 / 2 ≤ ‖q - s • quat4 d‖ := by
    have h2 := norm_sub_norm_le q (s • quat4 d)
    rw [norm_smul, hq4, h, Real.norm_of_nonneg h0.le] at h2
    linarith
  have hpos : 0 < ‖q - s • quat4 d‖ := by linarith
  rw [← hn]
  refine ⟨by positivity, ?_⟩
  have h6 : (1e-6 : ℝ) ≤ ‖q - s • quat4 d‖ := le_trans (by norm_num) hlow
  rw [up_cos (norm_direction h6) hg, direction, if_neg (not_lt.2 h6)]
  simp only [imI_smul, imJ_smul, imI_sub, imJ_sub, smul_eq_mul, quat4, hq_imI, hq_imJ]
  field_simp

/-- C153. From every attitude of a device that lies still and level, the sign of a small step of the Madgwick filter. Let `θ` be the tilt of the
estimate and `ψ` its turn about the vertical, so that `cos θ = 1 - 2 (i² + j²)` and `1 + cos ψ = 2 r² / (r² + k²)`: if
`cos θ (1 + cos ψ) > 1` every feed with a small gain tilts the estimate further; if it is less than 1 every such feed of an estimate that
is tilted at all brings it closer to level. -/
theorem madg_step_sign (junk : ℕ → XR) {f : ℕ} (hf : 0 < f) (incl : Option ℝ) {g : ℝ} (hg : 1e-6 < g) {q : ℍ[ℝ]} (hq1 : ‖q‖ = 1)
    (ht : 0 < q.imI ^ 2 + q.imJ ^ 2) :
    (q.re ^ 2 + q.imK ^ 2 < 2 * q.re ^ 2 * (turned q up ⬝ᵥ unitOf ![0, 0, g]) → ∃ b0 > (0 : ℝ), ∀ beta : ℝ, 0 < beta → beta < b0 → ∃ s q',
      fusMadgFeed junk f (optFin incl) (XR.fin beta) (Reading.sens ⟨some ![0, 0, g], none, 0⟩) (quat q) = ok (0, s, quat q') ∧
      turned q' up ⬝ᵥ unitOf ![0, 0, g] < turned q up ⬝ᵥ unitOf ![0, 0, g]) ∧
    (2 * q.re ^ 2 * (turned q up ⬝ᵥ unitOf ![0, 0, g]) < q.re ^ 2 + q.imK ^ 2 → ∃ b0 > (0 : ℝ), ∀ beta : ℝ, 0 < beta → beta < b0 → ∃ s q',
      fusMadgFeed junk f (optFin incl) (XR.fin beta) (Reading.sens ⟨some ![0, 0, g], none, 0⟩) (quat q) = ok (0, s, quat q') ∧
      turned q up ⬝ᵥ unitOf ![0, 0, g] < turned q' up ⬝ᵥ unitOf ![0, 0, g]) := by
  have hpos : (0 : ℝ) < f := by exact_mod_cast hf
  have hg0 : 0 < g := by linarith
  have hu := unit_eq hq1
  have hlen : (1e-6 : ℝ) < len ![0, 0, g] := by
    have : len ![0, 0, g] = g := by
      simp [len, dotProduct, Fin.sum_univ_three, Real.sqrt_mul_self hg0.le]
    rw [this]; exact hg
  rw [up_cos hq1 hg0]
  set N := q.imI ^ 2 + q.imJ ^ 2 with hN
  have hN1 : N ≤ 1 := by nlinarith [sq_nonneg q.re, sq_nonneg q.imK]
  -- one feed, with its effect on the tilt
  have key : stepSign q ≠ 0 → ∃ L > (0 : ℝ), ∀ beta : ℝ, 0 < beta → beta < (f : ℝ) / 2 → ∃ s q', ∃ h : ℝ,
      fusMadgFeed junk f (optFin incl) (XR.fin beta) (Reading.sens ⟨some ![0, 0, g], none, 0⟩) (quat q) = ok (0, s, quat q') ∧
      0 ≤ h ∧ h ≤ 1 ∧ ∃ M > (0 : ℝ), turned q' up ⬝ᵥ unitOf ![0, 0, g] =
        1 - 2 * N - 2 * (beta / f) * (2 * stepSign q / L + beta / f * (h - N)) / M := by
    intro hne
    have hg4 : levelGrad q ≠ 0 := by
      intro h
      apply hne
      rw [← stepSign_eq hq1, h]
      simp
    have hdd := dotProduct_self_pos' hg4
    set L := Real.sqrt (levelGrad q ⬝ᵥ levelGrad q) with hL
    have hLp : 0 < L := Real.sqrt_pos.2 hdd
    have hL2 : L ^ 2 = levelGrad q ⬝ᵥ levelGrad q := Real.sq_sqrt hdd.le
    refine ⟨L, hLp, fun beta hb0 hb1 => ?_⟩
    have hs0 : 0 < beta / f := by positivity
    have hs1 : beta / f < 1 / 2 := by rw [div_lt_iff₀ hpos]; linarith
    have h := madg_feed_correct junk hf incl beta hb0.le q (by rw [hq1]; norm_num) ![0, 0, g] none 0 hlen
    have hdir : madgDir incl q ![0, 0, g] none = fun i => levelGrad q i * (1 / L) := by
      show unitOf (jacG q *ᵥ (turned q up - unitOf ![0, 0, g])) = _
      rw [unitOf_level hg0, jacG_level hq1, unitOf, if_neg hg4]
    rw [direction_of_norm_one hq1, hdir, madgStep, eulerStep_rest, direction_of_norm_one hq1,
      show 1 / (f : ℝ) * beta = beta / f by ring] at h
    set d : Fin 4 → ℝ := fun i => levelGrad q i * (1 / L) with hd
    have hd1 : d ⬝ᵥ d = 1 := by
      have : d = (1 / L) • levelGrad q := by
        funext i
        simp [hd, mul_comm]
      rw [this, smul_dotProduct, dotProduct_smul, smul_eq_mul, smul_eq_mul, ← hL2]
      field_simp
    have hd' : d 0 ^ 2 + d 1 ^ 2 + d 2 ^ 2 + d 3 ^ 2 = 1 := by
      rw [← hd1]
      simp [dotProduct, Fin.sum_univ_four]
      ring
    obtain ⟨hM, hT⟩ := tilt_after hq1 d hd1 hs0 hs1 hg0
    have hS : N * (q.re * d 0 + q.imI * d 1 + q.imJ * d 2 + q.imK * d 3) - (q.imI * d 1 + q.imJ * d 2) = stepSign q / L := by
      rw [← stepSign_eq hq1, ← hN]
      simp only [hd]
      ring
    refine ⟨_, _, d 1 ^ 2 + d 2 ^ 2, h, by positivity, by nlinarith [sq_nonneg (d 0), sq_nonneg (d 3)], _, hM, ?_⟩
    rw [hT, show 2 * stepSign q / L = 2 * (stepSign q / L) by ring, ← hS]
    have hX : (q.imI - beta / f * d 1) ^ 2 + (q.imJ - beta / f * d 2) ^ 2 =
        N * (1 - 2 * (beta / f) * (q.re * d 0 + q.imI * d 1 + q.imJ * d 2 + q.imK * d 3) + (beta / f) ^ 2) +
        beta / f * (2 * (N * (q.re * d 0 + q.imI * d 1 + q.imJ * d 2 + q.imK * d 3) - (q.imI * d 1 + q.imJ * d 2)) +
          beta / f * (d 1 ^ 2 + d 2 ^ 2 - N)) := by
      rw [hN]
      ring
    rw [hX, add_div, mul_div_cancel_right₀ _ hM.ne']
    ring
  constructor
  · intro hlt
    have hS : 0 < stepSign q := mul_pos (by positivity) (by linarith)
    obtain ⟨L, hL, hk⟩ := key hS.ne'
    refine ⟨min (f / 2) (f * (2 * stepSign q / L)), lt_min (by positivity) (by positivity), fun beta hb0 hb1 => ?_⟩
    obtain ⟨s, q', h, e, h0, h1, M, hM, hT⟩ := hk beta hb0 (lt_of_lt_of_le hb1 (min_le_left _ _))
    have hb2 := lt_of_lt_of_le hb1 (min_le_right _ _)
    have hs0 : 0 < beta / f := by positivity
    have hs2 : beta / f < 2 * stepSign q / L := by rw [div_lt_iff₀ hpos]; linarith
    refine ⟨s, q', e, ?_⟩
    rw [hT]
    have : 0 < 2 * (beta / f) * (2 * stepSign q / L + beta / f * (h - N)) / M := by
      apply div_pos _ hM
      apply mul_pos (by positivity)
      nlinarith
    linarith
  · intro hlt
    have hS : stepSign q < 0 := mul_neg_of_pos_of_neg (by positivity) (by linarith)
    obtain ⟨L, hL, hk⟩ := key hS.ne
    have hSL : 0 < -(2 * stepSign q / L) := by
      rw [← neg_div]
      exact div_pos (by linarith) hL
    refine ⟨min (f / 2) (f * -(2 * stepSign q / L)), lt_min (by positivity) (by positivity), fun beta hb0 hb1 => ?_⟩
    obtain ⟨s, q', h, e, h0, h1, M, hM, hT⟩ := hk beta hb0 (lt_of_lt_of_le hb1 (min_le_left _ _))
    have hb2 := lt_of_lt_of_le hb1 (min_le_right _ _)
    have hs0 : 0 < beta / f := by positivity
    have hs2 : beta / f < -(2 * stepSign q / L) := by rw [div_lt_iff₀ hpos]; linarith
    refine ⟨s, q', e, ?_⟩
    rw [hT]
    have : 2 * (beta / f) * (2 * stepSign q / L + beta / f * (h - N)) / M < 0 := by
      apply div_neg_of_neg_of_pos _ hM
      apply mul_neg_of_pos_of_neg (by positivity)
      nlinarith
    linarith

/-- C153. In particular the filter works for a device whose estimate is turned by more than 90 degrees about the vertical (`r² < k²`): there
every feed with a small gain brings a tilted estimate closer to level. -/
theorem madg_works_turned_round (junk : ℕ → XR) {f : ℕ} (hf : 0 < f) (incl : Option ℝ) {g : ℝ} (hg : 1e-6 < g) {q : ℍ[ℝ]} (hq1 : ‖q‖ = 1)
    (ht : 0 < q.imI ^ 2 + q.imJ ^ 2) (hr : q.re ^ 2 < q.imK ^ 2) : ∃ b0 > (0 : ℝ), ∀ beta : ℝ, 0 < beta → beta < b0 → ∃ s q',
      fusMadgFeed junk f (optFin incl) (XR.fin beta) (Reading.sens ⟨some ![0, 0, g], none, 0⟩) (quat q) = ok (0, s, quat q') ∧
      turned q up ⬝ᵥ unitOf ![0, 0, g] < turned q' up ⬝ᵥ unitOf ![0, 0, g] := by
  refine (madg_step_sign junk hf incl hg hq1 ht).2 ?_
  rw [up_cos hq1 (by linarith)]
  nlinarith [mul_nonneg (sq_nonneg q.re) ht.le]

/-- Both cases occur: `(0.8, 0.36, 0, 0.48)` is tilted further, `(0.48, 0.36, 0, 0.8)` comes closer to level. -/
example (a b : ℍ[ℝ]) (ha : a = hq 0.8 0.36 0 0.48) (hb : b = hq 0.48 0.36 0 0.8) :
    ‖a‖ = 1 ∧ ‖b‖ = 1 ∧ a.re ^ 2 + a.imK ^ 2 < 2 * a.re ^ 2 * (turned a up ⬝ᵥ unitOf ![0, 0, 9.81]) ∧ b.re ^ 2 < b.imK ^ 2 := by
  have h1 : ‖a‖ = 1 := by
    have : ‖a‖ ^ 2 = 1 := by rw [norm_sq_quat, ha]; norm_num
    nlinarith [norm_nonneg a]
  have h2 : ‖b‖ = 1 := by
    have : ‖b‖ ^ 2 = 1 := by rw [norm_sq_quat, hb]; norm_num
    nlinarith [norm_nonneg b]
  refine ⟨h1, h2, ?_, ?_⟩
  · rw [up_cos h1 (by norm_num), ha]
    norm_num
  · rw [hb]
    norm_num

end Verif
