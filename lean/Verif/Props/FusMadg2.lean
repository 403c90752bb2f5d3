import Verif.Props.FusMadg

/-!
# C153, C146: the step of the Madgwick filter from a tilt about any horizontal axis
-/

namespace Verif

open Quaternion Matrix Out Real

/-- A device tilted by `2 φ` about the horizontal axis with the direction `α`. -/
noncomputable def tilt (α φ : ℝ) : ℍ[ℝ] := hq (cos φ) (sin φ * cos α) (sin φ * sin α) 0

/-- Every unit quaternion without a part along the vertical is such a tilt. -/
theorem tilt_all (q : ℍ[ℝ]) (hq1 : ‖q‖ = 1) (hk : q.imK = 0) : ∃ α φ, q = tilt α φ := by
  have h := unit_eq hq1
  rw [hk] at h
  have h1 : q.imI ^ 2 + q.imJ ^ 2 = (Real.sqrt (q.imI ^ 2 + q.imJ ^ 2)) ^ 2 := (Real.sq_sqrt (by positivity)).symm
  set s := Real.sqrt (q.imI ^ 2 + q.imJ ^ 2) with hs
  have hs0 : 0 ≤ s := Real.sqrt_nonneg _
  have hc : q.re ^ 2 + s ^ 2 = 1 := by rw [← h1]; linarith
  have hφ : cos (arccos q.re) = q.re := cos_arccos (by nlinarith) (by nlinarith)
  have hφs : sin (arccos q.re) = s := by
    rw [sin_arccos, show 1 - q.re ^ 2 = s ^ 2 by linarith, Real.sqrt_sq hs0]
  refine ⟨Complex.arg ⟨q.imI, q.imJ⟩, arccos q.re, ?_⟩
  have hn : ‖(⟨q.imI, q.imJ⟩ : ℂ)‖ = s := by
    rw [Complex.norm_def, Complex.normSq_mk, hs]
    congr 1
    ring
  have e1 : s * cos (Complex.arg ⟨q.imI, q.imJ⟩) = q.imI := by
    rw [← hn]
    exact Complex.norm_mul_cos_arg _
  have e2 : s * sin (Complex.arg ⟨q.imI, q.imJ⟩) = q.imJ := by
    rw [← hn]
    exact Complex.norm_mul_sin_arg _
  unfold tilt
  rw [hφ, hφs, e1, e2]
  ext <;> simp [hk]

theorem norm_tilt (α φ : ℝ) : ‖tilt α φ‖ = 1 := by
  have h : ‖tilt α φ‖ ^ 2 = 1 := by
    rw [norm_sq_quat]
    simp [tilt]
    linear_combination sin_sq_add_cos_sq φ + sin φ ^ 2 * sin_sq_add_cos_sq α
  have := norm_nonneg (tilt α φ)
  nlinarith

/-- The vertical of a device tilted by `2 φ`. -/
theorem turned_tilt (α φ : ℝ) : turned (tilt α φ) up = ![sin α * sin (2 * φ), -(cos α * sin (2 * φ)), cos (2 * φ)] := by
  apply turned_of_comm (norm_tilt α φ)
  have h : sin φ ^ 2 = 1 - cos φ ^ 2 := sin_sq φ
  have hα : sin α ^ 2 = 1 - cos α ^ 2 := sin_sq α
  ext
  · simp [tilt, up, pureQ]
    ring
  · simp [tilt, up, pureQ, sin_two_mul, cos_two_mul]
    ring
  · simp [tilt, up, pureQ, sin_two_mul, cos_two_mul]
    ring
  · simp [tilt, up, pureQ, sin_two_mul, cos_two_mul]
    linear_combination (-2 * cos φ) * h - 2 * cos φ * sin φ ^ 2 * hα

theorem jacG_tilt (α φ : ℝ) : jacG (tilt α φ) *ᵥ (turned (tilt α φ) up - up) =
    (4 * sin φ) • ![-(cos φ * sin φ), (2 * sin φ ^ 2 - cos φ ^ 2) * cos α, (2 * sin φ ^ 2 - cos φ ^ 2) * sin α, 0] := by
  have h : sin φ ^ 2 = 1 - cos φ ^ 2 := sin_sq φ
  have hα : sin α ^ 2 = 1 - cos α ^ 2 := sin_sq α
  rw [turned_tilt]
  ext i
  fin_cases i <;> simp [jacG, tilt, up, Matrix.mulVec, dotProduct, Fin.sum_univ_three, sin_two_mul, cos_two_mul]
  · linear_combination (-4 * sin φ ^ 2 * cos φ) * hα
  · linear_combination (-8 * sin φ * cos α) * h
  · linear_combination (-8 * sin φ * sin α) * h
  · ring

/-- The plane of the turns about the x axis, turned to the axis `α`. -/
noncomputable def toAxis (α : ℝ) (x : ℍ[ℝ]) : ℍ[ℝ] := hq x.re (x.imI * cos α) (x.imI * sin α) 0

theorem toAxis_tip (α φ : ℝ) : toAxis α (tip φ) = tilt α φ := by
  ext <;> simp [toAxis, tip, tilt]

theorem norm_toAxis (α : ℝ) {x : ℍ[ℝ]} (h1 : x.imJ = 0) (h2 : x.imK = 0) : ‖toAxis α x‖ = ‖x‖ := by
  have h : ‖toAxis α x‖ ^ 2 = ‖x‖ ^ 2 := by
    rw [norm_sq_quat, norm_sq_quat, h1, h2]
    simp [toAxis]
    linear_combination x.imI ^ 2 * sin_sq_add_cos_sq α
  exact (sq_eq_sq₀ (norm_nonneg _) (norm_nonneg _)).1 h

theorem direction_toAxis (α : ℝ) {x : ℍ[ℝ]} (h1 : x.imJ = 0) (h2 : x.imK = 0) : direction (toAxis α x) = toAxis α (direction x) := by
  unfold direction
  rw [norm_toAxis α h1 h2]
  split
  · ext <;> simp [toAxis]
  · ext <;> simp [toAxis] <;> ring

/-- One feed of a device lying still and level, whose estimated attitude is a tilt about any horizontal axis: the estimate stays a tilt about that
axis. -/
theorem madg_tilt (junk : ℕ → XR) {f : ℕ} (hf : 0 < f) (incl : Option ℝ) {beta : ℝ} (hb : 0 < beta) (hs : beta < f / 2) {g : ℝ}
    (hg : 1e-6 < g) (α : ℝ) {φ : ℝ} (h0 : 0 < φ) (h1 : φ < π / 2) :
    ∃ δ, (∃ s, fusMadgFeed junk f (optFin incl) (XR.fin beta) (Reading.sens ⟨some ![0, 0, g], none, 0⟩) (quat (tilt α φ)) =
        ok (0, s, quat (tilt α (φ + δ)))) ∧ |δ| ≤ arcsin (beta / f) ∧ (φ < π / 6 → 0 < δ) ∧ (π / 6 ≤ φ → δ ≤ 0) := by
  have hpos : (0 : ℝ) < f := by exact_mod_cast hf
  have hsin : 0 < sin φ := sin_pos_of_pos_of_lt_pi h0 (by linarith [pi_pos])
  have hcos : 0 < cos φ := cos_pos_of_mem_Ioo ⟨by linarith, h1⟩
  have hL := tip_dir_pos φ
  set L := Real.sqrt ((cos φ * sin φ) ^ 2 + (2 * sin φ ^ 2 - cos φ ^ 2) ^ 2) with hLd
  have hLp : 0 < L := Real.sqrt_pos.2 hL
  have hL2 : L ^ 2 = (cos φ * sin φ) ^ 2 + (2 * sin φ ^ 2 - cos φ ^ 2) ^ 2 := Real.sq_sqrt hL.le
  have hg0 : 0 < g := by linarith
  have hlen : (1e-6 : ℝ) < len ![0, 0, g] := by
    have : len ![0, 0, g] = g := by
      simp [len, dotProduct, Fin.sum_univ_three, Real.sqrt_mul_self hg0.le]
    rw [this]; exact hg
  have h := madg_feed_correct junk hf incl beta hb.le (tilt α φ) (by rw [norm_tilt]; norm_num) ![0, 0, g] none 0 hlen
  have hdir : madgDir incl (tilt α φ) ![0, 0, g] none =
      ![-(cos φ * sin φ) / L, (2 * sin φ ^ 2 - cos φ ^ 2) / L * cos α, (2 * sin φ ^ 2 - cos φ ^ 2) / L * sin α, 0] := by
    show unitOf (jacG (tilt α φ) *ᵥ (turned (tilt α φ) up - unitOf ![0, 0, g])) = _
    have hne : (![-(cos φ * sin φ), (2 * sin φ ^ 2 - cos φ ^ 2) * cos α, (2 * sin φ ^ 2 - cos φ ^ 2) * sin α, 0] : Fin 4 → ℝ) ≠ 0 := by
      intro h
      have e1 : -(cos φ * sin φ) = 0 := congrFun h 0
      have : 0 < cos φ * sin φ := mul_pos hcos hsin
      linarith
    rw [unitOf_level hg0, jacG_tilt, unitOf_smul_pos (by positivity) _ hne]
    have hd : (![-(cos φ * sin φ), (2 * sin φ ^ 2 - cos φ ^ 2) * cos α, (2 * sin φ ^ 2 - cos φ ^ 2) * sin α, 0] : Fin 4 → ℝ) ⬝ᵥ
        ![-(cos φ * sin φ), (2 * sin φ ^ 2 - cos φ ^ 2) * cos α, (2 * sin φ ^ 2 - cos φ ^ 2) * sin α, 0] =
        (cos φ * sin φ) ^ 2 + (2 * sin φ ^ 2 - cos φ ^ 2) ^ 2 := by
      simp [dotProduct, Fin.sum_univ_four]
      linear_combination (2 * sin φ ^ 2 - cos φ ^ 2) ^ 2 * sin_sq_add_cos_sq α
    rw [hd, ← hLd]
    ext i
    fin_cases i <;> simp [div_eq_mul_inv] <;> ring
  rw [direction_of_norm_one (norm_tilt α φ), hdir, madgStep, eulerStep_rest, direction_of_norm_one (norm_tilt α φ),
    show 1 / (f : ℝ) * beta = beta / f by ring] at h
  obtain ⟨δ, e, hδ, hp, hn⟩ := tip_step φ (a := -(cos φ * sin φ) / L) (b := (2 * sin φ ^ 2 - cos φ ^ 2) / L) (s := beta / f)
    (by rw [div_pow, div_pow, ← add_div, neg_sq, ← hL2, div_self (by positivity)]) (by positivity)
    (by rw [div_lt_iff₀ hpos]; linarith)
  have e' : direction (tilt α φ - (beta / f) • quat4 ![-(cos φ * sin φ) / L, (2 * sin φ ^ 2 - cos φ ^ 2) / L * cos α,
      (2 * sin φ ^ 2 - cos φ ^ 2) / L * sin α, 0]) = tilt α (φ + δ) := by
    rw [← toAxis_tip α (φ + δ), ← e, ← direction_toAxis α (by simp [tip, quat4]) (by simp [tip, quat4])]
    congr 1
    ext <;> simp [toAxis, tip, tilt, quat4] <;> ring
  rw [e'] at h
  have ht := sin_sq_add_cos_sq φ
  have hτ : (2 * sin φ ^ 2 - cos φ ^ 2) / L * cos φ - -(cos φ * sin φ) / L * sin φ = cos φ * (4 * sin φ ^ 2 - 1) / L := by
    field_simp
    linear_combination (-1) * ht
  have h6 : sin (π / 6) = 1 / 2 := sin_pi_div_six
  refine ⟨δ, ⟨_, h⟩, hδ, fun hl => hp ?_, fun hl => hn ?_⟩
  · rw [hτ]
    have : sin φ < 1 / 2 := by
      rw [← h6]
      exact sin_lt_sin_of_lt_of_le_pi_div_two (by linarith) (by linarith [pi_pos]) hl
    apply div_neg_of_neg_of_pos _ hLp
    apply mul_neg_of_pos_of_neg hcos
    nlinarith
  · rw [hτ]
    have : 1 / 2 ≤ sin φ := by
      rw [← h6]
      exact sin_le_sin_of_le_of_le_pi_div_two (by linarith [pi_pos]) h1.le hl
    apply div_nonneg _ hLp.le
    apply mul_nonneg hcos.le
    nlinarith

theorem arcsin_lt_sixth {f : ℕ} (hf : 0 < f) {beta : ℝ} (hb : 0 < beta) (hs : beta < f / 2) : arcsin (beta / f) < π / 6 := by
  have hpos : (0 : ℝ) < f := by exact_mod_cast hf
  have : arcsin (1 / 2) = π / 6 := by
    rw [← sin_pi_div_six]
    exact arcsin_sin (by linarith [pi_pos]) (by linarith [pi_pos])
  rw [← this]
  have hd : beta / f < 1 / 2 := by rw [div_lt_iff₀ hpos]; linarith
  have hd0 : 0 < beta / f := by positivity
  exact strictMonoOn_arcsin ⟨by linarith, by linarith⟩ ⟨by norm_num, by norm_num⟩ hd

theorem tilt_cos (α φ : ℝ) {g : ℝ} (hg : 0 < g) : turned (tilt α φ) up ⬝ᵥ unitOf ![0, 0, g] = cos (2 * φ) := by
  rw [unitOf_level hg, turned_tilt]
  simp [up, dotProduct, Fin.sum_univ_three]

/-- C153. The Madgwick filter steps the wrong way from every tilt below 60 degrees, about any horizontal axis: a device lies still and level, the
accelerometer says so, and one feed, with any positive gain below half the sampling frequency, tilts the estimate further. -/
theorem madg_tilts_further_any (junk : ℕ → XR) {f : ℕ} (hf : 0 < f) (incl : Option ℝ) {beta : ℝ} (hb : 0 < beta) (hs : beta < f / 2)
    {g : ℝ} (hg : 1e-6 < g) (α : ℝ) {φ : ℝ} (h0 : 0 < φ) (h1 : φ < π / 6) :
    ∃ s q', fusMadgFeed junk f (optFin incl) (XR.fin beta) (Reading.sens ⟨some ![0, 0, g], none, 0⟩) (quat (tilt α φ)) = ok (0, s, quat q') ∧
      turned q' up ⬝ᵥ unitOf ![0, 0, g] < turned (tilt α φ) up ⬝ᵥ unitOf ![0, 0, g] := by
  obtain ⟨δ, ⟨s, e⟩, hδ, hp, -⟩ := madg_tilt junk hf incl hb hs hg α h0 (by linarith [pi_pos])
  have hδ0 := hp h1
  have h6 := arcsin_lt_sixth hf hb hs
  refine ⟨s, _, e, ?_⟩
  rw [tilt_cos _ _ (by linarith), tilt_cos _ _ (by linarith)]
  apply cos_lt_cos_of_nonneg_of_le_pi (by linarith) _ (by linarith)
  have := (abs_le.1 hδ).2
  linarith

/-- C153. Part of the property that does hold: in the same situation, from tilts of 60 degrees up to 180 degrees about any horizontal axis a feed
never tilts the estimate further. Missing: the tilts below 60 degrees, for which it is false (`madg_tilts_further_any`), and attitudes
that are also turned about the vertical. -/
theorem madg_tilts_back_any_partial (junk : ℕ → XR) {f : ℕ} (hf : 0 < f) (incl : Option ℝ) {beta : ℝ} (hb : 0 < beta) (hs : beta < f / 2)
    {g : ℝ} (hg : 1e-6 < g) (α : ℝ) {φ : ℝ} (h0 : π / 6 ≤ φ) (h1 : φ < π / 2) :
    ∃ s q', fusMadgFeed junk f (optFin incl) (XR.fin beta) (Reading.sens ⟨some ![0, 0, g], none, 0⟩) (quat (tilt α φ)) = ok (0, s, quat q') ∧
      turned (tilt α φ) up ⬝ᵥ unitOf ![0, 0, g] ≤ turned q' up ⬝ᵥ unitOf ![0, 0, g] := by
  obtain ⟨δ, ⟨s, e⟩, hδ, -, hn⟩ := madg_tilt junk hf incl hb hs hg α (by linarith [pi_pos]) h1
  have hδ0 := hn h0
  have h6 := arcsin_lt_sixth hf hb hs
  refine ⟨s, _, e, ?_⟩
  rw [tilt_cos _ _ (by linarith), tilt_cos _ _ (by linarith)]
  have := (abs_le.1 hδ).1
  exact cos_le_cos_of_nonneg_of_le_pi (by linarith) (by linarith) (by linarith)

/-- C146. The Madgwick filter of a device that lies still and level does not come to rest level: from every tilt about any horizontal axis, over
histories of any length, the estimated vertical stays away from the measured one, at least by the smaller of the first tilt and
60 degrees less twice the arc sine of the gain over the frequency. -/
theorem madg_never_level_any (junk : ℕ → XR) {f : ℕ} (hf : 0 < f) (incl : Option ℝ) {beta : ℝ} (hb : 0 < beta) (hs : beta < f / 2)
    {g : ℝ} (hg : 1e-6 < g) (α : ℝ) {φ : ℝ} (h0 : 0 < φ) (h1 : φ < π / 2) :
    ∃ Q : ℕ → ℍ[ℝ], Q 0 = tilt α φ ∧
      (∀ n, ∃ s, fusMadgFeed junk f (optFin incl) (XR.fin beta) (Reading.sens ⟨some ![0, 0, g], none, 0⟩) (quat (Q n)) =
        ok (0, s, quat (Q (n + 1)))) ∧
      (∀ n, turned (Q n) up ⬝ᵥ unitOf ![0, 0, g] ≤ cos (2 * min φ (π / 6 - arcsin (beta / f)))) ∧
      cos (2 * min φ (π / 6 - arcsin (beta / f))) < 1 := by
  have h6 := arcsin_lt_sixth hf hb hs
  have hl0 : 0 < min φ (π / 6 - arcsin (beta / f)) := lt_min h0 (by linarith)
  set lo := min φ (π / 6 - arcsin (beta / f)) with hlo
  have hlo6 : lo ≤ π / 6 - arcsin (beta / f) := min_le_right _ _
  have step : ∀ x : {x : ℝ // lo ≤ x ∧ x < π / 2}, ∃ y : {x : ℝ // lo ≤ x ∧ x < π / 2},
      ∃ s, fusMadgFeed junk f (optFin incl) (XR.fin beta) (Reading.sens ⟨some ![0, 0, g], none, 0⟩) (quat (tilt α x.1)) =
        ok (0, s, quat (tilt α y.1)) := by
    rintro ⟨x, hx, hx2⟩
    obtain ⟨δ, e, hδ, hp, hn⟩ := madg_tilt junk hf incl hb hs hg α (lt_of_lt_of_le hl0 hx) hx2
    have hδ2 := abs_le.1 hδ
    refine ⟨⟨x + δ, ?_⟩, e⟩
    by_cases h : x < π / 6
    · exact ⟨by linarith [hp h], by linarith [pi_pos, hδ2.2]⟩
    · exact ⟨by linarith [hδ2.1], by linarith [hn (not_lt.1 h)]⟩
  choose F hF using step
  set X : ℕ → {x : ℝ // lo ≤ x ∧ x < π / 2} := fun n => F^[n] ⟨φ, min_le_left _ _, h1⟩ with hX
  refine ⟨fun n => tilt α (X n).1, rfl, fun n => ?_, fun n => ?_, ?_⟩
  · have : X (n + 1) = F (X n) := Function.iterate_succ_apply' _ _ _
    simp only [this]
    exact hF _
  · obtain ⟨ha, hb⟩ := (X n).2
    rw [tilt_cos _ _ (by linarith)]
    exact cos_le_cos_of_nonneg_of_le_pi (by linarith) (by linarith) (by linarith)
  · have h := min_le_left φ (π / 6 - arcsin (beta / f))
    have := cos_lt_cos_of_nonneg_of_le_pi (x := 0) (y := 2 * lo) le_rfl (by linarith) (by linarith)
    rwa [cos_zero] at this

/-- The hypotheses are met: a tilt by 0.2 about the axis in the direction 1. -/
example : ∃ s q', fusMadgFeed (fun _ => XR.nan) 100 (optFin none) (XR.fin 0.1) (Reading.sens ⟨some ![0, 0, 9.81], none, 0⟩) (quat (tilt 1 0.1)) =
    ok (0, s, quat q') ∧ turned q' up ⬝ᵥ unitOf ![0, 0, 9.81] < turned (tilt 1 0.1) up ⬝ᵥ unitOf ![0, 0, 9.81] :=
  madg_tilts_further_any _ (by norm_num) _ (by norm_num) (by norm_num) (by norm_num) 1 (by norm_num) (by linarith [pi_gt_three])

end Verif
