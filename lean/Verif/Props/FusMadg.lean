import Verif.Props.FusConv
import Mathlib.Analysis.SpecialFunctions.Trigonometric.Inverse
import Mathlib.Analysis.Calculus.Deriv.Add
import Mathlib.Analysis.Calculus.Deriv.Mul

/-!
# C153, C146: the step of the Madgwick filter and the misfit it is meant to reduce
-/

namespace Verif

open Quaternion Matrix Out Real

/-- A device turned by `2 φ` about its x axis. -/
noncomputable def tip (φ : ℝ) : ℍ[ℝ] := hq (cos φ) (sin φ) 0 0

theorem norm_tip (φ : ℝ) : ‖tip φ‖ = 1 := by
  have h : ‖tip φ‖ ^ 2 = 1 := by
    rw [norm_sq_quat]
    simp [tip]
  have := norm_nonneg (tip φ)
  nlinarith

/-- The vertical of a device turned by `2 φ` about its x axis. -/
theorem turned_tip (φ : ℝ) : turned (tip φ) up = ![0, -sin (2 * φ), cos (2 * φ)] := by
  apply turned_of_comm (norm_tip φ)
  have h : sin φ ^ 2 = 1 - cos φ ^ 2 := sin_sq φ
  ext
  · simp [tip, up, pureQ]
  · simp [tip, up, pureQ]
  · simp [tip, up, pureQ, sin_two_mul, cos_two_mul]
    linear_combination 0 * h
  · simp [tip, up, pureQ, sin_two_mul, cos_two_mul]
    linear_combination (-2 * cos φ) * h

theorem jacG_tip (φ : ℝ) : jacG (tip φ) *ᵥ (turned (tip φ) up - up) =
    (4 * sin φ) • ![-(cos φ * sin φ), 2 * sin φ ^ 2 - cos φ ^ 2, 0, 0] := by
  have h : sin φ ^ 2 = 1 - cos φ ^ 2 := sin_sq φ
  rw [turned_tip]
  ext i
  fin_cases i <;> simp [jacG, tip, up, Matrix.mulVec, dotProduct, Fin.sum_univ_three, sin_two_mul, cos_two_mul]
  · ring
  · linear_combination (-8 * sin φ) * h

theorem tip_dir_pos (φ : ℝ) : 0 < (cos φ * sin φ) ^ 2 + (2 * sin φ ^ 2 - cos φ ^ 2) ^ 2 := by
  have h := sin_sq_add_cos_sq φ
  by_contra hc
  have h1 := sq_nonneg (cos φ * sin φ)
  have h2 := sq_nonneg (2 * sin φ ^ 2 - cos φ ^ 2)
  have e1 : cos φ * sin φ = 0 := by nlinarith
  have e2 : 2 * sin φ ^ 2 - cos φ ^ 2 = 0 := by nlinarith
  rcases mul_eq_zero.1 e1 with e | e <;> rw [e] at e2 h <;> nlinarith

theorem unitOf_smul_pos {n : ℕ} {k : ℝ} (hk : 0 < k) (x : Fin (n + 1) → ℝ) (hx : x ≠ 0) :
    unitOf (k • x) = fun i => x i * (1 / Real.sqrt (x ⬝ᵥ x)) := by
  have hkx : k • x ≠ 0 := smul_ne_zero hk.ne' hx
  rw [unitOf, if_neg hkx]
  have : (k • x) ⬝ᵥ (k • x) = k ^ 2 * (x ⬝ᵥ x) := by
    rw [smul_dotProduct, dotProduct_smul, smul_eq_mul, smul_eq_mul]; ring
  rw [this, Real.sqrt_mul (sq_nonneg k), Real.sqrt_sq hk.le]
  have hs := (Real.sqrt_pos.2 (dotProduct_self_pos' hx)).ne'
  funext i
  simp only [Pi.smul_apply, smul_eq_mul]
  field_simp

/-- The step against the unit vector `(a, b, 0, 0)`, of length `s`: a turn about the x axis, in the direction against the tangential part. -/
theorem tip_step (φ : ℝ) {a b s : ℝ} (hab : a ^ 2 + b ^ 2 = 1) (h0 : 0 < s) (h1 : s < 1 / 2) :
    ∃ δ, direction (tip φ - s • quat4 ![a, b, 0, 0]) = tip (φ + δ) ∧ |δ| ≤ arcsin s ∧
      (b * cos φ - a * sin φ < 0 → 0 < δ) ∧ (0 ≤ b * cos φ - a * sin φ → δ ≤ 0) := by
  have ht := sin_sq_add_cos_sq φ
  set ρ := a * cos φ + b * sin φ with hρ
  set τ := b * cos φ - a * sin φ with hτ
  have hrt : ρ ^ 2 + τ ^ 2 = 1 := by
    rw [hρ, hτ]
    linear_combination (a ^ 2 + b ^ 2) * ht + hab
  have hρ1 : ρ ≤ 1 := by nlinarith [sq_nonneg τ]
  have hz : 0 < 1 - s * ρ := by nlinarith
  set N := Real.sqrt ((1 - s * ρ) ^ 2 + (s * τ) ^ 2) with hN
  have hN2 : N ^ 2 = (1 - s * ρ) ^ 2 + (s * τ) ^ 2 := Real.sq_sqrt (by positivity)
  have hNp : 0 < N := Real.sqrt_pos.2 (by positivity)
  have hN6 : (1e-6 : ℝ) ≤ N := by
    have : 1 / 2 ≤ 1 - s * ρ := by nlinarith
    have : (1 / 2 : ℝ) ≤ N := Real.le_sqrt_of_sq_le (by nlinarith [sq_nonneg (s * τ)])
    linarith
  have hsin : (-(s * τ) / N) ^ 2 ≤ s ^ 2 := by
    rw [div_pow, div_le_iff₀ (by positivity), hN2]
    have : (-(s * τ)) ^ 2 = s ^ 2 * τ ^ 2 := by ring
    rw [this]
    apply mul_le_mul_of_nonneg_left _ (sq_nonneg s)
    nlinarith [sq_nonneg (ρ - s)]
  have habs : |-(s * τ) / N| ≤ s := abs_le_of_sq_le_sq hsin h0.le
  have hb := abs_le.1 habs
  have hcos : cos (arcsin (-(s * τ) / N)) = (1 - s * ρ) / N := by
    rw [cos_arcsin]
    have : 1 - (-(s * τ) / N) ^ 2 = ((1 - s * ρ) / N) ^ 2 := by
      rw [div_pow, div_pow]
      field_simp
      rw [hN2]; ring
    rw [this, Real.sqrt_sq (by positivity)]
  have hsn : sin (arcsin (-(s * τ) / N)) = -(s * τ) / N := sin_arcsin (by linarith) (by linarith)
  refine ⟨arcsin (-(s * τ) / N), ?_, ?_, ?_, ?_⟩
  · have hnorm : ‖tip φ - s • quat4 ![a, b, 0, 0]‖ = N := by
      have : ‖tip φ - s • quat4 ![a, b, 0, 0]‖ ^ 2 = N ^ 2 := by
        rw [norm_sq_quat, hN2, hρ, hτ]
        simp [tip, quat4]
        linear_combination (1 - s ^ 2 * (a ^ 2 + b ^ 2)) * ht
      have h := norm_nonneg (tip φ - s • quat4 ![a, b, 0, 0])
      nlinarith
    rw [direction, hnorm, if_neg (not_lt.2 hN6)]
    have e0 : ∀ x y : ℝ, N⁻¹ * x = y ↔ x = N * y := by
      intro x y
      constructor
      · rintro rfl; field_simp
      · rintro rfl; field_simp
    ext
    · simp only [tip, quat4, hq_re, re_smul, re_sub, smul_eq_mul]
      rw [e0, cos_add, hcos, hsn]
      simp
      field_simp
      rw [hρ, hτ]
      linear_combination (s * a) * ht
    · simp only [tip, quat4, hq_imI, imI_smul, imI_sub, smul_eq_mul]
      rw [e0, sin_add, hcos, hsn]
      simp
      field_simp
      rw [hρ, hτ]
      linear_combination (s * b) * ht
    · simp [tip, quat4]
    · simp [tip, quat4]
  · rw [abs_le, ← arcsin_neg]
    exact ⟨monotone_arcsin hb.1, monotone_arcsin hb.2⟩
  · intro h
    rw [arcsin_pos]
    apply div_pos _ hNp
    nlinarith
  · intro h
    rw [arcsin_nonpos]
    apply div_nonpos_of_nonpos_of_nonneg _ hNp.le
    nlinarith

theorem unitOf_level {g : ℝ} (hg : 0 < g) : unitOf ![0, 0, g] = up := by
  have : (![0, 0, g] : V3) = g • up := by ext i; fin_cases i <;> simp [up]
  rw [this, unitOf_smul_pos hg _ (by intro h; simpa [up] using congrFun h 2)]
  ext i
  fin_cases i <;> simp [up]

/-- One feed of a device lying still and level, whose estimated attitude is a turn about its x axis. -/
theorem madg_tip (junk : ℕ → XR) {f : ℕ} (hf : 0 < f) (incl : Option ℝ) {beta : ℝ} (hb : 0 < beta) (hs : beta < f / 2) {g : ℝ}
    (hg : 1e-6 < g) {φ : ℝ} (h0 : 0 < φ) (h1 : φ < π / 2) :
    ∃ δ, (∃ s, fusMadgFeed junk f (optFin incl) (XR.fin beta) (Reading.sens ⟨some ![0, 0, g], none, 0⟩) (quat (tip φ)) =
        ok (0, s, quat (tip (φ + δ)))) ∧ |δ| ≤ arcsin (beta / f) ∧ (φ < π / 6 → 0 < δ) ∧ (π / 6 ≤ φ → δ ≤ 0) := by
  have hpos : (0 : ℝ) < f := by exact_mod_cast hf
  have hsin : 0 < sin φ := sin_pos_of_pos_of_lt_pi h0 (by linarith [pi_pos])
  have hcos : 0 < cos φ := cos_pos_of_mem_Ioo ⟨by linarith, h1⟩
  have hL := tip_dir_pos φ
  set L := Real.sqrt ((cos φ * sin φ) ^ 2 + (2 * sin φ ^ 2 - cos φ ^ 2) ^ 2) with hLd
  have hLp : 0 < L := Real.sqrt_pos.2 hL
  have hL2 : L ^ 2 = (cos φ * sin φ) ^ 2 + (2 * sin φ ^ 2 - cos φ ^ 2) ^ 2 := Real.sq_sqrt hL.le
  have hg0 : 0 < g := by linarith
  have hlen : (1e-6 : ℝ) < len ![0, 0, g] := by
    have : len ![0, 0, g] = g := by
      simp [len, dotProduct, Fin.sum_univ_three, Real.sqrt_mul_self hg0.le]
    rw [this]; exact hg
  have h := madg_feed_correct junk hf incl beta hb.le (tip φ) (by rw [norm_tip]; norm_num) ![0, 0, g] none 0 hlen
  have hdir : madgDir incl (tip φ) ![0, 0, g] none = ![-(cos φ * sin φ) / L, (2 * sin φ ^ 2 - cos φ ^ 2) / L, 0, 0] := by
    show unitOf (jacG (tip φ) *ᵥ (turned (tip φ) up - unitOf ![0, 0, g])) = _
    have hne : (![-(cos φ * sin φ), 2 * sin φ ^ 2 - cos φ ^ 2, 0, 0] : Fin 4 → ℝ) ≠ 0 := by
      intro h
      have e1 : -(cos φ * sin φ) = 0 := congrFun h 0
      have : 0 < cos φ * sin φ := mul_pos hcos hsin
      linarith
    rw [unitOf_level hg0, jacG_tip, unitOf_smul_pos (by positivity) _ hne]
    have hd : (![-(cos φ * sin φ), 2 * sin φ ^ 2 - cos φ ^ 2, 0, 0] : Fin 4 → ℝ) ⬝ᵥ ![-(cos φ * sin φ), 2 * sin φ ^ 2 - cos φ ^ 2, 0, 0] =
        (cos φ * sin φ) ^ 2 + (2 * sin φ ^ 2 - cos φ ^ 2) ^ 2 := by
      simp [dotProduct, Fin.sum_univ_four]; ring
    rw [hd, ← hLd]
    ext i
    fin_cases i <;> simp [div_eq_mul_inv]
  rw [direction_of_norm_one (norm_tip φ), hdir, madgStep, eulerStep_rest, direction_of_norm_one (norm_tip φ),
    show 1 / (f : ℝ) * beta = beta / f by ring] at h
  obtain ⟨δ, e, hδ, hp, hn⟩ := tip_step φ (a := -(cos φ * sin φ) / L) (b := (2 * sin φ ^ 2 - cos φ ^ 2) / L) (s := beta / f)
    (by rw [div_pow, div_pow, ← add_div, neg_sq, ← hL2, div_self (by positivity)]) (by positivity)
    (by rw [div_lt_iff₀ hpos]; linarith)
  rw [e] at h
  have ht := sin_sq_add_cos_sq φ
  have hτ : (2 * sin φ ^ 2 - cos φ ^ 2) / L * cos φ - -(cos φ * sin φ) / L * sin φ = cos φ * (4 * sin φ ^ 2 - 1) / L := by
    field_simp
    linear_combination (-1) * ht
  have h6 : sin (π / 6) = 1 / 2 := sin_pi_div_six
  refine ⟨δ, ⟨_, h⟩, hδ, fun hl => hp ?_, fun hl => hn ?_⟩
  · rw [hτ]
    have : sin φ < 1 / 2 := by
      rw [← h6]
      exact sin_lt_sin_of_lt_of_le_pi_div_two (by linarith) (by linarith [pi_pos]) hl
    apply div_neg_of_neg_of_pos _ hLp
    apply mul_neg_of_pos_of_neg hcos
    nlinarith
  · rw [hτ]
    have : 1 / 2 ≤ sin φ := by
      rw [← h6]
      exact sin_le_sin_of_le_of_le_pi_div_two (by linarith [pi_pos]) h1.le hl
    apply div_nonneg _ hLp.le
    apply mul_nonneg hcos.le
    nlinarith

/-- C153. The Madgwick filter steps the wrong way. A device lies still and level, the accelerometer says so, and the estimated attitude is
tilted about the x axis by any angle `2 φ` below 60 degrees: one feed, with any positive gain below half the sampling frequency, tilts
the estimate further. -/
theorem madg_tilts_further (junk : ℕ → XR) {f : ℕ} (hf : 0 < f) (incl : Option ℝ) {beta : ℝ} (hb : 0 < beta) (hs : beta < f / 2)
    {g : ℝ} (hg : 1e-6 < g) {φ : ℝ} (h0 : 0 < φ) (h1 : φ < π / 6) :
    ∃ s q', fusMadgFeed junk f (optFin incl) (XR.fin beta) (Reading.sens ⟨some ![0, 0, g], none, 0⟩) (quat (tip φ)) = ok (0, s, quat q') ∧
      turned q' up ⬝ᵥ unitOf ![0, 0, g] < turned (tip φ) up ⬝ᵥ unitOf ![0, 0, g] := by
  have hpos : (0 : ℝ) < f := by exact_mod_cast hf
  obtain ⟨δ, ⟨s, e⟩, hδ, hp, -⟩ := madg_tip junk hf incl hb hs hg h0 (by linarith [pi_pos])
  have hδ0 := hp h1
  have h6 : arcsin (beta / f) ≤ π / 6 := by
    have : arcsin (1 / 2) = π / 6 := by
      rw [← sin_pi_div_six]
      exact arcsin_sin (by linarith [pi_pos]) (by linarith [pi_pos])
    rw [← this]
    apply monotone_arcsin
    rw [div_le_iff₀ hpos]; linarith
  refine ⟨s, _, e, ?_⟩
  rw [unitOf_level (by linarith), turned_tip, turned_tip]
  simp only [up, dotProduct, Fin.sum_univ_three]
  simp
  apply cos_lt_cos_of_nonneg_of_le_pi (by linarith) _ (by linarith)
  have := (abs_le.1 hδ).2
  linarith

example : ∃ s q', fusMadgFeed (fun _ => XR.nan) 100 (optFin none) (XR.fin 0.1) (Reading.sens ⟨some ![0, 0, 9.81], none, 0⟩) (quat (tip 0.1)) =
    ok (0, s, quat q') ∧ turned q' up ⬝ᵥ unitOf ![0, 0, 9.81] < turned (tip 0.1) up ⬝ᵥ unitOf ![0, 0, 9.81] :=
  madg_tilts_further _ (by norm_num) _ (by norm_num) (by norm_num) (by norm_num) (by norm_num) (by linarith [pi_gt_three])

/-- C153. Part of the property that does hold: in the same situation, from tilts of 60 degrees up to 180 degrees about the x axis a feed never tilts the
estimate further. Missing: the tilts below 60 degrees, for which it is false (`madg_tilts_further`), and turns about other axes. -/
theorem madg_tilts_back_partial (junk : ℕ → XR) {f : ℕ} (hf : 0 < f) (incl : Option ℝ) {beta : ℝ} (hb : 0 < beta) (hs : beta < f / 2)
    {g : ℝ} (hg : 1e-6 < g) {φ : ℝ} (h0 : π / 6 ≤ φ) (h1 : φ < π / 2) :
    ∃ s q', fusMadgFeed junk f (optFin incl) (XR.fin beta) (Reading.sens ⟨some ![0, 0, g], none, 0⟩) (quat (tip φ)) = ok (0, s, quat q') ∧
      turned (tip φ) up ⬝ᵥ unitOf ![0, 0, g] ≤ turned q' up ⬝ᵥ unitOf ![0, 0, g] := by
  have hpos : (0 : ℝ) < f := by exact_mod_cast hf
  obtain ⟨δ, ⟨s, e⟩, hδ, -, hn⟩ := madg_tip junk hf incl hb hs hg (by linarith [pi_pos]) h1
  have hδ0 := hn h0
  have h6 : arcsin (beta / f) ≤ π / 6 := by
    have : arcsin (1 / 2) = π / 6 := by
      rw [← sin_pi_div_six]
      exact arcsin_sin (by linarith [pi_pos]) (by linarith [pi_pos])
    rw [← this]
    apply monotone_arcsin
    rw [div_le_iff₀ hpos]; linarith
  refine ⟨s, _, e, ?_⟩
  rw [unitOf_level (by linarith), turned_tip, turned_tip]
  simp only [up, dotProduct, Fin.sum_univ_three]
  simp
  have := (abs_le.1 hδ).1
  exact cos_le_cos_of_nonneg_of_le_pi (by linarith) (by linarith) (by linarith)

example : ∃ s q', fusMadgFeed (fun _ => XR.nan) 100 (optFin none) (XR.fin 0.1) (Reading.sens ⟨some ![0, 0, 9.81], none, 0⟩) (quat (tip 1)) =
    ok (0, s, quat q') ∧ turned (tip 1) up ⬝ᵥ unitOf ![0, 0, 9.81] ≤ turned q' up ⬝ᵥ unitOf ![0, 0, 9.81] :=
  madg_tilts_back_partial _ (by norm_num) _ (by norm_num) (by norm_num) (by norm_num) (by linarith [pi_lt_four]) (by linarith [pi_gt_three])

/-- C146. The Madgwick filter of a device that lies still and level does not come to rest level: from every tilt about the x axis, over
histories of any length, the estimated vertical stays away from the measured one. The bound is the smaller of the first tilt and
60 degrees less twice the arc sine of the gain over the frequency. -/
theorem madg_never_level (junk : ℕ → XR) {f : ℕ} (hf : 0 < f) (incl : Option ℝ) {beta : ℝ} (hb : 0 < beta) (hs : beta < f / 2)
    {g : ℝ} (hg : 1e-6 < g) {φ : ℝ} (h0 : 0 < φ) (h1 : φ < π / 2) :
    ∃ Q : ℕ → ℍ[ℝ], Q 0 = tip φ ∧
      (∀ n, ∃ s, fusMadgFeed junk f (optFin incl) (XR.fin beta) (Reading.sens ⟨some ![0, 0, g], none, 0⟩) (quat (Q n)) =
        ok (0, s, quat (Q (n + 1)))) ∧
      (∀ n, turned (Q n) up ⬝ᵥ unitOf ![0, 0, g] ≤ cos (2 * min φ (π / 6 - arcsin (beta / f)))) ∧
      cos (2 * min φ (π / 6 - arcsin (beta / f))) < 1 := by
  have hpos : (0 : ℝ) < f := by exact_mod_cast hf
  have h6 : arcsin (beta / f) < π / 6 := by
    have : arcsin (1 / 2) = π / 6 := by
      rw [← sin_pi_div_six]
      exact arcsin_sin (by linarith [pi_pos]) (by linarith [pi_pos])
    rw [← this]
    have hd : beta / f < 1 / 2 := by rw [div_lt_iff₀ hpos]; linarith
    have hd0 : 0 < beta / f := by positivity
    exact strictMonoOn_arcsin ⟨by linarith, by linarith⟩ ⟨by norm_num, by norm_num⟩ hd
  have hl0 : 0 < min φ (π / 6 - arcsin (beta / f)) := lt_min h0 (by linarith)
  set lo := min φ (π / 6 - arcsin (beta / f)) with hlo
  have hlo6 : lo ≤ π / 6 - arcsin (beta / f) := min_le_right _ _
  have step : ∀ x : {x : ℝ // lo ≤ x ∧ x < π / 2}, ∃ y : {x : ℝ // lo ≤ x ∧ x < π / 2},
      ∃ s, fusMadgFeed junk f (optFin incl) (XR.fin beta) (Reading.sens ⟨some ![0, 0, g], none, 0⟩) (quat (tip x.1)) =
        ok (0, s, quat (tip y.1)) := by
    rintro ⟨x, hx, hx2⟩
    obtain ⟨δ, e, hδ, hp, hn⟩ := madg_tip junk hf incl hb hs hg (lt_of_lt_of_le hl0 hx) hx2
    have hδ2 := abs_le.1 hδ
    refine ⟨⟨x + δ, ?_⟩, e⟩
    by_cases h : x < π / 6
    · exact ⟨by linarith [hp h], by linarith [pi_pos, hδ2.2]⟩
    · exact ⟨by linarith [hδ2.1], by linarith [hn (not_lt.1 h)]⟩
  choose F hF using step
  set X : ℕ → {x : ℝ // lo ≤ x ∧ x < π / 2} := fun n => F^[n] ⟨φ, min_le_left _ _, h1⟩ with hX
  refine ⟨fun n => tip (X n).1, rfl, fun n => ?_, fun n => ?_, ?_⟩
  · have : X (n + 1) = F (X n) := Function.iterate_succ_apply' _ _ _
    simp only [this]
    exact hF _
  · obtain ⟨ha, hb⟩ := (X n).2
    rw [unitOf_level (by linarith), turned_tip, show (![0, -sin (2 * (X n).1), cos (2 * (X n).1)] : V3) ⬝ᵥ up = cos (2 * (X n).1) by
      simp [up, dotProduct, Fin.sum_univ_three]]
    exact cos_le_cos_of_nonneg_of_le_pi (by linarith) (by linarith) (by linarith)
  · have h := min_le_left φ (π / 6 - arcsin (beta / f))
    have := cos_lt_cos_of_nonneg_of_le_pi (x := 0) (y := 2 * lo) le_rfl (by linarith) (by linarith)
    rwa [cos_zero] at this

/-! ### The Jacobians -/

/-- The direction `(x, 0, z)` of the earth's frame as the attitude `q` shows it when vectors are turned by the *inverse* of `q`: for a unit
attitude `turned (star q) (x, 0, z)`, see `shown_eq`. -/
def shown (x z : ℝ) (q : ℍ[ℝ]) : V3 :=
  ![x * (1 - 2 * (q.imJ ^ 2 + q.imK ^ 2)) + z * (2 * (q.imI * q.imK - q.re * q.imJ)),
    x * (2 * (q.imI * q.imJ - q.re * q.imK)) + z * (2 * (q.re * q.imI + q.imJ * q.imK)),
    x * (2 * (q.re * q.imJ + q.imI * q.imK)) + z * (1 - 2 * (q.imI ^ 2 + q.imJ ^ 2))]

theorem shown_eq (x z : ℝ) {q : ℍ[ℝ]} (hq : ‖q‖ = 1) : shown x z q = turned (star q) ![x, 0, z] := by
  symm
  have hu := unit_eq hq
  apply turned_of_comm (by rw [norm_star, hq])
  ext
  · simp [shown, pureQ]; ring
  · simp [shown, pureQ]; linear_combination (2 * q.imJ * z) * hu
  · simp [shown, pureQ]; linear_combination (2 * (q.imK * x - q.imI * z)) * hu
  · simp [shown, pureQ]; linear_combination (-2 * q.imJ * x) * hu

/-- The derivative of `shown` at `q` along `e`. -/
def shownD (x z : ℝ) (q e : ℍ[ℝ]) : V3 :=
  ![x * (-4 * q.imJ * e.imJ - 4 * q.imK * e.imK) + z * (2 * (e.imI * q.imK + q.imI * e.imK - e.re * q.imJ - q.re * e.imJ)),
    x * (2 * (e.imI * q.imJ + q.imI * e.imJ - e.re * q.imK - q.re * e.imK)) +
      z * (2 * (e.re * q.imI + q.re * e.imI + e.imJ * q.imK + q.imJ * e.imK)),
    x * (2 * (e.re * q.imJ + q.re * e.imJ + e.imI * q.imK + q.imI * e.imK)) + z * (-4 * q.imI * e.imI - 4 * q.imJ * e.imJ)]

theorem deriv_quadratic (a b c : ℝ) : HasDerivAt (fun t : ℝ => a + t * b + t ^ 2 * c) b 0 := by
  have h1 : HasDerivAt (fun t : ℝ => t * b) (1 * b) 0 := (hasDerivAt_id (0 : ℝ)).mul_const b
  have h2 : HasDerivAt (fun t : ℝ => t ^ 2 * c) ((2 : ℕ) * 0 ^ 1 * 1 * c) 0 := ((hasDerivAt_id (0 : ℝ)).pow 2).mul_const c
  have h := (h1.const_add a).add h2
  have e : 1 * b + ((2 : ℕ) * 0 ^ 1 * 1 * c) = b := by simp
  rw [e] at h
  exact h

theorem shown_deriv (x z : ℝ) (q e : ℍ[ℝ]) (i : Fin 3) : HasDerivAt (fun t : ℝ => shown x z (q + t • e) i) (shownD x z q e i) 0 := by
  have h := deriv_quadratic (shown x z q i) (shownD x z q e i)
    ((![x * (-2 * (e.imJ ^ 2 + e.imK ^ 2)) + z * (2 * (e.imI * e.imK - e.re * e.imJ)),
      x * (2 * (e.imI * e.imJ - e.re * e.imK)) + z * (2 * (e.re * e.imI + e.imJ * e.imK)),
      x * (2 * (e.re * e.imJ + e.imI * e.imK)) + z * (-2 * (e.imI ^ 2 + e.imJ ^ 2))] : V3) i)
  convert h using 2 with t
  fin_cases i <;> simp [shown, shownD] <;> ring

/-- C153. What the Jacobian of the gravity part is the derivative of: the vertical shown by the *inverse* of the attitude, not
the one the filter subtracts the reading from. -/
theorem madg_jacobian_gravity (q e : ℍ[ℝ]) (i : Fin 3) :
    HasDerivAt (fun t : ℝ => shown 0 1 (q + t • e) i) ((![e.re, e.imI, e.imJ, e.imK] ᵥ* jacG q) i) 0 := by
  convert shown_deriv 0 1 q e i using 1
  fin_cases i <;> simp [shownD, jacG, Matrix.vecMul, dotProduct, Fin.sum_univ_four] <;> ring

/-- C153. The Jacobian of the magnetic part, for the field `(x, 0, z)`, is the derivative of the field shown by the inverse attitude only
where these products vanish: three of its twelve entries are wrong (one has the vertical part of the field in place of the horizontal
one, one the wrong sign, one the factor 2 for 4). -/
theorem madg_jacobian_field_iff (x z : ℝ) (q : ℍ[ℝ]) :
    (∀ (e : ℍ[ℝ]) (i : Fin 3), HasDerivAt (fun t : ℝ => shown x z (q + t • e) i) ((![e.re, e.imI, e.imJ, e.imK] ᵥ* jacB x z q) i) 0) ↔
      x * q.imJ = 0 ∧ z * q.imJ = 0 ∧ z * q.imK = 0 := by
  constructor
  · intro h
    have h1 := (h (hq 0 1 0 0) 1).unique (shown_deriv x z q (hq 0 1 0 0) 1)
    have h2 := (h (hq 0 0 1 0) 1).unique (shown_deriv x z q (hq 0 0 1 0) 1)
    have h3 := (h (hq 0 0 1 0) 2).unique (shown_deriv x z q (hq 0 0 1 0) 2)
    simp [shownD, jacB, Matrix.vecMul, dotProduct, Fin.sum_univ_four] at h1 h2 h3
    refine ⟨?_, ?_, ?_⟩ <;> linarith
  · rintro ⟨h1, h2, h3⟩ e i
    convert shown_deriv x z q e i using 1
    fin_cases i <;> simp [shownD, jacB, Matrix.vecMul, dotProduct, Fin.sum_univ_four]
    · ring
    · linear_combination (2 * e.imI) * h2 - (2 * e.imI) * h1 - (4 * e.imJ) * h3
    · linear_combination (2 * e.imJ) * h2

/-- The correct Jacobian is not used: an attitude and a field for which the entries differ. -/
example : ¬ ∀ (e : ℍ[ℝ]) (i : Fin 3), HasDerivAt (fun t : ℝ => shown 1 0 (hq 0 0 1 0 + t • e) i)
    ((![e.re, e.imI, e.imJ, e.imK] ᵥ* jacB 1 0 (hq 0 0 1 0)) i) 0 := by
  rw [madg_jacobian_field_iff]
  simp

end Verif
