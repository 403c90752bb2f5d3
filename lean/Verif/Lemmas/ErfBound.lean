import Verif.Lemmas.ErfTab
import Mathlib.Analysis.Real.Pi.Bounds
import Mathlib.Analysis.Complex.ExponentialBounds

/-!
# The inverse error function: slopes, the seam between the two polynomials, and the far tail
-/

namespace Verif.PB

open Verif

/-- `u = -log (1 - x²)`. -/
noncomputable def uOf (x : ℝ) : ℝ := -Real.log (1 - x ^ 2)

/-- `x P(u)`. -/
noncomputable def yOf (c : List ℚ) (x : ℝ) : ℝ := x * pev c (uOf x)

theorem uOf_pos_arg {x : ℝ} (h : |x| < 1) : 0 < 1 - x ^ 2 := by
  have := (sq_lt_one_iff_abs_lt_one x).2 h
  linarith

theorem exp_uOf {x : ℝ} (h : |x| < 1) : Real.exp (-(uOf x)) = 1 - x ^ 2 := by
  rw [uOf, neg_neg, Real.exp_log (uOf_pos_arg h)]

theorem uOf_nonneg {x : ℝ} (h : |x| < 1) : 0 ≤ uOf x := by
  have := Real.log_nonpos (uOf_pos_arg h).le (by nlinarith [sq_nonneg x])
  rw [uOf]; linarith

theorem uOf_le_iff {x u : ℝ} (h : |x| < 1) : uOf x ≤ u ↔ Real.exp (-u) ≤ 1 - x ^ 2 := by
  rw [← exp_uOf h, Real.exp_le_exp, neg_le_neg_iff]

theorem uOf_deriv {x : ℝ} (h : |x| < 1) : HasDerivAt uOf (2 * x / (1 - x ^ 2)) x := by
  have h1 : HasDerivAt (fun x : ℝ => 1 - x ^ 2) (-(2 * x)) x := by
    have := ((hasDerivAt_id x).pow 2).const_sub 1
    refine this.congr_deriv ?_
    simp
  have h2 := (h1.log (uOf_pos_arg h).ne').neg
  refine h2.congr_deriv ?_
  ring

theorem yOf_deriv (c : List ℚ) {x : ℝ} (h : |x| < 1) : HasDerivAt (yOf c) (fQ c (uOf x) / (1 - x ^ 2)) x := by
  have h1 := (hasDerivAt_id x).mul ((pev_deriv c (uOf x)).comp x (uOf_deriv h))
  refine h1.congr_deriv ?_
  have h0 := uOf_pos_arg h
  rw [fQ, exp_uOf h]
  simp only [id, Function.comp]
  field_simp
  ring

theorem erfy_deriv (c : List ℚ) {x : ℝ} (h : |x| < 1) (hq : 0 < fQ c (uOf x)) :
    HasDerivAt (fun x => XR.rerf (yOf c x)) (2 / √Real.pi * Real.exp (fL c (uOf x))) x := by
  have h1 := (rerf_deriv (yOf c x)).comp x (yOf_deriv c h)
  refine h1.congr_deriv ?_
  have h0 := uOf_pos_arg h
  have e : Real.exp (uOf x) = 1 / (1 - x ^ 2) := by
    rw [← exp_uOf h, Real.exp_neg, one_div, inv_inv]
  rw [fL, exp_uOf h, Real.exp_add, Real.exp_log hq, Real.exp_sub, e, Real.exp_neg, yOf,
    show (x * pev c (uOf x)) ^ 2 = (1 - (1 - x ^ 2)) * pev c (uOf x) ^ 2 by ring]
  field_simp

/-- The first coefficient is `√π / 2` to six decimals. -/
theorem head_close : |2 / √Real.pi * 8.86226892e-1 - 1| ≤ 1e-6 := by
  have h1 := Real.pi_gt_d6
  have h2 := Real.pi_lt_d6
  have hs : 0 < √Real.pi := Real.sqrt_pos.2 Real.pi_pos
  have l : (1.7724536 : ℝ) ≤ √Real.pi := Real.le_sqrt_of_sq_le (by norm_num; linarith)
  have r : √Real.pi ≤ 1.7724542 := by
    rw [Real.sqrt_le_left (by norm_num)]; norm_num; linarith
  rw [show 2 / √Real.pi * 8.86226892e-1 - 1 = (1.772453784 - √Real.pi) / √Real.pi by field_simp; norm_num, abs_div, abs_of_pos hs,
    div_le_iff₀ hs, abs_le]
  constructor <;> linarith

/-- From a bound on the logarithm of the slope to a bound on the slope. -/
theorem slope_close {l d : ℝ} (hd : d ≤ 1e-3) (h : |l - Real.log 8.86226892e-1| ≤ d) :
    |2 / √Real.pi * Real.exp l - 1| ≤ 1.0012 * d + 1e-6 := by
  obtain ⟨z, hz⟩ : ∃ z, l - Real.log 8.86226892e-1 = z := ⟨_, rfl⟩
  rw [hz] at h
  have e : Real.exp l = 8.86226892e-1 * Real.exp z := by
    rw [← hz, Real.exp_sub, Real.exp_log (by norm_num)]; field_simp
  have hz1 : |z| ≤ 1 := by linarith
  have h1 := Real.abs_exp_sub_one_sub_id_le hz1
  have hd0 : 0 ≤ d := (abs_nonneg z).trans h
  have h2 : |Real.exp z - 1| ≤ 1.001 * d := by
    have h3 : z ^ 2 ≤ d * 1e-3 := by
      rw [← sq_abs]; nlinarith [abs_nonneg z]
    rw [abs_le] at h h1 ⊢
    constructor <;> nlinarith
  have hh := head_close
  rw [e, ← mul_assoc]
  obtain ⟨A, hA⟩ : ∃ A, 2 / √Real.pi * 8.86226892e-1 = A := ⟨_, rfl⟩
  rw [hA] at hh ⊢
  have e2 : A * Real.exp z - 1 = A * (Real.exp z - 1) + (A - 1) := by ring
  have hA1 : |A| ≤ 1.000001 := by
    rw [abs_le] at hh ⊢; constructor <;> linarith
  rw [e2]
  refine (abs_add_le _ _).trans ?_
  rw [abs_mul]
  have := mul_le_mul hA1 h2 (abs_nonneg _) (by norm_num)
  nlinarith

theorem pev_mid_zero : pev midU 0 = 8.86226892e-1 := by
  simp only [midU, pev]
  norm_num

theorem fL_mid_zero : fL midU 0 = Real.log 8.86226892e-1 := by
  rw [fL, fQ, pev_mid_zero]
  norm_num

theorem mid_all {u : ℝ} (h0 : 0 ≤ u) (h1 : u ≤ 49 / 8) : 0 < fQ midU u ∧ |fL midU u - Real.log 8.86226892e-1| ≤ 6.54e-5 := by
  have h := chkAll_sound _ 1 mid_chk u (by simpa using h0) (by
    simp only [List.length_map]
    rw [show midD.length = 49 from rfl]; push_cast; linarith) (by simp [midD])
  rw [show ((1 : ℕ) - (1 : ℕ) : ℝ) / 16 = 0 by norm_num, fL_mid_zero] at h
  refine ⟨h.1, h.2.trans ?_⟩
  rw [show (midD.map (· / 10 ^ 7)).sum = 5226e-7 by simp only [midD, List.map, List.sum_cons, List.sum_nil]; norm_num]
  norm_num

theorem tail_all {u : ℝ} (h0 : 49 / 8 ≤ u) (h1 : u ≤ 129 / 8) : 0 < fQ tailU u ∧ |fL tailU u - fL tailU (49 / 8)| ≤ 1.3e-4 := by
  have h := chkAll_sound _ 100 tail_chk u (by norm_num; linarith) (by
    simp only [List.length_map]
    rw [show tailD.length = 40 from rfl]; push_cast; linarith) (by simp [tailD])
  rw [show ((100 : ℕ) - (2 : ℕ) : ℝ) / 16 = 49 / 8 by norm_num] at h
  refine ⟨h.1, h.2.trans ?_⟩
  rw [show (tailD.map (· / 10 ^ 7)).sum = 5188e-7 by simp only [tailD, List.map, List.sum_cons, List.sum_nil]; norm_num]
  norm_num

theorem seam_vals : 2.3112873559 < pev midU (49 / 8) ∧ pev midU (49 / 8) < 2.3112873560 ∧
    2.3112872099 < pev tailU (49 / 8) ∧ pev tailU (49 / 8) < 2.3112872100 ∧
    0.1980770520 < pev (pder midU) (49 / 8) ∧ pev (pder midU) (49 / 8) < 0.1980770521 ∧
    0.1980821101 < pev (pder tailU) (49 / 8) ∧ pev (pder tailU) (49 / 8) < 0.1980821103 := by
  simp only [midU, tailU, pder, padd, pev]
  norm_num

theorem exp_seam : Real.exp (-(49 / 8)) ≤ 0.0026 := by
  have h := Real.exp_one_gt_d9
  have h1 : (400 : ℝ) ≤ Real.exp (49 / 8) := by
    have e : Real.exp (49 / 8) ≥ Real.exp 6 := Real.exp_le_exp.2 (by norm_num)
    have e6 : Real.exp 6 = Real.exp 1 ^ 6 := by rw [← Real.exp_nat_mul]; norm_num
    have : (2.718 : ℝ) ^ 6 ≤ Real.exp 1 ^ 6 := pow_le_pow_left₀ (by norm_num) (by linarith) 6
    rw [← e6] at this
    norm_num at this
    linarith
  rw [Real.exp_neg, inv_le_comm₀ (Real.exp_pos _) (by norm_num)]
  norm_num
  linarith

/-- At the seam the two logarithms of slopes differ by little. -/
theorem seam_slope : |fL tailU (49 / 8) - fL midU (49 / 8)| ≤ 4e-5 := by
  obtain ⟨a1, a2, b1, b2, c1, c2, d1, d2⟩ := seam_vals
  have hs := exp_seam
  have hs0 := Real.exp_pos (-(49 / 8 : ℝ))
  have hQ1 : fQ midU (49 / 8) = Real.exp (-(49 / 8)) * pev midU (49 / 8) + 2 * (1 - Real.exp (-(49 / 8))) * pev (pder midU) (49 / 8) := rfl
  have hQ2 : fQ tailU (49 / 8) = Real.exp (-(49 / 8)) * pev tailU (49 / 8) + 2 * (1 - Real.exp (-(49 / 8))) * pev (pder tailU) (49 / 8) := rfl
  rw [fL, fL]
  obtain ⟨s, hs'⟩ : ∃ s, Real.exp (-(49 / 8 : ℝ)) = s := ⟨_, rfl⟩
  rw [hs'] at hs hs0 hQ1 hQ2 ⊢
  obtain ⟨p, hp⟩ : ∃ p, pev midU (49 / 8) = p := ⟨_, rfl⟩
  obtain ⟨q, hq⟩ : ∃ p, pev tailU (49 / 8) = p := ⟨_, rfl⟩
  obtain ⟨p', hp'⟩ : ∃ p, pev (pder midU) (49 / 8) = p := ⟨_, rfl⟩
  obtain ⟨q', hq'⟩ : ∃ p, pev (pder tailU) (49 / 8) = p := ⟨_, rfl⟩
  rw [hp] at a1 a2 hQ1
  rw [hq] at b1 b2 hQ2
  rw [hp'] at c1 c2 hQ1
  rw [hq'] at d1 d2 hQ2
  rw [hp, hq]
  obtain ⟨Q1, hQ1'⟩ : ∃ p, fQ midU (49 / 8) = p := ⟨_, rfl⟩
  obtain ⟨Q2, hQ2'⟩ : ∃ p, fQ tailU (49 / 8) = p := ⟨_, rfl⟩
  rw [hQ1'] at hQ1 ⊢
  rw [hQ2'] at hQ2 ⊢
  have g1 : 0.39 ≤ Q1 := by rw [hQ1]; nlinarith
  have g2 : 0.39 ≤ Q2 := by rw [hQ2]; nlinarith
  have g3 : |Q2 - Q1| ≤ 1.1e-5 := by
    have e : Q2 - Q1 = s * (q - p) + 2 * (1 - s) * (q' - p') := by rw [hQ1, hQ2]; ring
    rw [e, abs_le]
    constructor <;> nlinarith
  have l : |Real.log Q2 - Real.log Q1| ≤ 3e-5 := by
    rw [abs_le] at g3 ⊢
    have k1 : Real.log Q2 - Real.log Q1 ≤ (Q2 - Q1) / Q1 := by
      rw [← Real.log_div (by linarith) (by linarith)]
      have := Real.log_le_sub_one_of_pos (x := Q2 / Q1) (div_pos (by linarith) (by linarith))
      refine this.trans (le_of_eq ?_)
      rw [sub_div, div_self (by linarith : Q1 ≠ 0)]
    have k2 : Real.log Q1 - Real.log Q2 ≤ (Q1 - Q2) / Q2 := by
      rw [← Real.log_div (by linarith) (by linarith)]
      have := Real.log_le_sub_one_of_pos (x := Q1 / Q2) (div_pos (by linarith) (by linarith))
      refine this.trans (le_of_eq ?_)
      rw [sub_div, div_self (by linarith : Q2 ≠ 0)]
    have k3 : (Q2 - Q1) / Q1 ≤ 3e-5 := by rw [div_le_iff₀ (by linarith)]; linarith
    have k4 : (Q1 - Q2) / Q2 ≤ 3e-5 := by rw [div_le_iff₀ (by linarith)]; linarith
    constructor <;> linarith
  have m : |(1 - s) * (q ^ 2 - p ^ 2)| ≤ 1e-6 := by
    have e : q ^ 2 - p ^ 2 = (q - p) * (q + p) := by ring
    have : |q ^ 2 - p ^ 2| ≤ 1e-6 := by
      rw [e, abs_le]; constructor <;> nlinarith
    rw [abs_mul, abs_of_nonneg (by linarith)]
    nlinarith [abs_nonneg (q ^ 2 - p ^ 2)]
  rw [abs_le] at l m ⊢
  constructor <;> linarith

theorem tail_log {u : ℝ} (h0 : 49 / 8 ≤ u) (h1 : u ≤ 129 / 8) : |fL tailU u - Real.log 8.86226892e-1| ≤ 2.4e-4 := by
  have a := (tail_all h0 h1).2
  have b := seam_slope
  have c := (mid_all (u := 49 / 8) (by norm_num) le_rfl).2
  rw [abs_le] at a b c ⊢
  constructor <;> linarith

theorem mid_slope {x : ℝ} (h : |x| < 1) (hu : uOf x ≤ 49 / 8) :
    0 < fQ midU (uOf x) ∧ |2 / √Real.pi * Real.exp (fL midU (uOf x)) - 1| ≤ 6.66e-5 := by
  obtain ⟨a, b⟩ := mid_all (uOf_nonneg h) hu
  refine ⟨a, (slope_close (by norm_num) b).trans (by norm_num)⟩

theorem tail_slope {x : ℝ} (h0 : 49 / 8 ≤ uOf x) (hu : uOf x ≤ 129 / 8) :
    0 < fQ tailU (uOf x) ∧ |2 / √Real.pi * Real.exp (fL tailU (uOf x)) - 1| ≤ 2.5e-4 :=
  ⟨(tail_all h0 hu).1, (slope_close (by norm_num) (tail_log h0 hu)).trans (by norm_num)⟩

/-- The polynomial for the tails is increasing from the seam on. -/
theorem tail_der_pos {u : ℝ} (h : 49 / 8 ≤ u) : 0.1 ≤ pev (pder tailU) u := by
  have piece : ∀ a : ℚ, (0.1 : ℚ) ≤ plow 2 (pshift a (pder tailU)) → |u - a| ≤ 2 → 0.1 ≤ pev (pder tailU) u := by
    intro a ha hu
    have := plow_le (h := 2) (pshift a (pder tailU)) (v := u - a) (by exact_mod_cast hu)
    rw [pev_shift, add_sub_cancel] at this
    refine le_trans ?_ this
    have h2 : ((0.1 : ℚ) : ℝ) ≤ _ := Rat.cast_le.2 ha
    refine le_trans (by norm_num) h2
  by_cases h1 : u ≤ 81 / 8
  · exact piece (65 / 8) (by decide +kernel) (by rw [abs_le]; push_cast; constructor <;> linarith)
  by_cases h2 : u ≤ 113 / 8
  · exact piece (97 / 8) (by decide +kernel) (by rw [abs_le]; push_cast; constructor <;> linarith)
  by_cases h3 : u ≤ 145 / 8
  · exact piece (129 / 8) (by decide +kernel) (by rw [abs_le]; push_cast; constructor <;> linarith)
  by_cases h4 : u ≤ 177 / 8
  · exact piece (161 / 8) (by decide +kernel) (by rw [abs_le]; push_cast; constructor <;> linarith)
  have hn := pev_ge_of_nonneg (padd (pshift 20 (pder tailU)) [-0.1]) (by decide +kernel) (v := u - 20) (by linarith)
  rw [pev_add, pev_shift] at hn
  simp only [pev] at hn
  push_cast at hn
  rw [add_sub_cancel] at hn
  norm_num at hn
  norm_num
  linarith

theorem tail_strictMono : StrictMonoOn (pev tailU) (Set.Ici (49 / 8)) := by
  refine strictMonoOn_of_deriv_pos (convex_Ici _) (fun u _ => (pev_deriv tailU u).continuousAt.continuousWithinAt) ?_
  intro u hu
  rw [interior_Ici] at hu
  rw [(pev_deriv tailU u).deriv]
  have := tail_der_pos (u := u) (le_of_lt hu)
  linarith

theorem tail_ge {u : ℝ} (h : 49 / 8 ≤ u) : 2.3112872099 < pev tailU u :=
  seam_vals.2.2.1.trans_le (tail_strictMono.monotoneOn (Set.mem_Ici.2 le_rfl) h h)

theorem tail_Q_pos {u : ℝ} (h : 49 / 8 ≤ u) : 0 < fQ tailU u := by
  have h1 := tail_ge h
  have h2 := tail_der_pos h
  have h3 : Real.exp (-u) ≤ 1 := by rw [Real.exp_le_one_iff]; linarith
  have h4 := Real.exp_pos (-u)
  have h5 : 0 < Real.exp (-u) * pev tailU u := by
    have : 0 < pev tailU u := by linarith
    positivity
  have h6 : 0 ≤ 2 * (1 - Real.exp (-u)) * pev (pder tailU) u := by
    have : 0 ≤ pev (pder tailU) u := by linarith
    have : 0 ≤ 1 - Real.exp (-u) := by linarith
    positivity
  rw [fQ]; linarith

/-! ## The error function itself -/

theorem rerf_strictMono : StrictMono XR.rerf :=
  strictMono_of_hasDerivAt_pos rerf_deriv fun z => by have := Real.pi_pos; positivity

theorem rerf_lt_one (z : ℝ) : XR.rerf z < 1 := by
  have h : XR.rerf (z + 1) ≤ 1 := rerf_strictMono.monotone.ge_of_tendsto rerf_atTop (z + 1)
  exact (rerf_strictMono (by linarith : z < z + 1)).trans_le h

theorem rerf_zero : XR.rerf 0 = 0 := by
  have h := rerf_neg 0
  rw [neg_zero] at h
  linarith

theorem rerf_lip (a b : ℝ) : |XR.rerf a - XR.rerf b| ≤ 2 / √Real.pi * |a - b| := by
  have hb : ∀ z, ‖deriv XR.rerf z‖ ≤ 2 / √Real.pi := fun z => by
    rw [(rerf_deriv z).deriv, Real.norm_eq_abs, abs_of_nonneg (by positivity)]
    have h1 : Real.exp (-z ^ 2) ≤ 1 := by rw [Real.exp_le_one_iff]; nlinarith [sq_nonneg z]
    have h2 : 0 ≤ 2 / √Real.pi := by positivity
    nlinarith
  have := Convex.norm_image_sub_le_of_norm_deriv_le (s := Set.univ) (fun z _ => (rerf_deriv z).differentiableAt) (fun z _ => hb z)
    convex_univ (Set.mem_univ b) (Set.mem_univ a)
  simpa [Real.norm_eq_abs] using this

/-- A lower bound for the error function in the tail. -/
theorem rerf_tail {z : ℝ} (h : 1 ≤ z) : 1 - Real.exp (-z ^ 2) / √Real.pi ≤ XR.rerf z := by
  have hd : ∀ z : ℝ, HasDerivAt (fun z => XR.rerf z + Real.exp (-z ^ 2) / √Real.pi) (2 / √Real.pi * Real.exp (-z ^ 2) * (1 - z)) z := fun z => by
    have h1 : HasDerivAt (fun z : ℝ => -z ^ 2) (-(2 * z)) z := by
      refine (((hasDerivAt_id z).pow 2).neg).congr_deriv ?_
      simp
    refine ((rerf_deriv z).add (h1.exp.div_const (√Real.pi))).congr_deriv ?_
    ring
  have ha : AntitoneOn (fun z => XR.rerf z + Real.exp (-z ^ 2) / √Real.pi) (Set.Ici 1) := by
    refine antitoneOn_of_deriv_nonpos (convex_Ici _) (fun z _ => (hd z).continuousAt.continuousWithinAt)
      (fun z _ => (hd z).differentiableAt.differentiableWithinAt) fun z hz => ?_
    rw [interior_Ici] at hz
    rw [(hd z).deriv]
    have : 0 ≤ 2 / √Real.pi * Real.exp (-z ^ 2) := by positivity
    have h1 : 1 - z ≤ 0 := by have : 1 < z := hz; linarith
    exact mul_nonpos_of_nonneg_of_nonpos this h1
  have hl : ∀ w, z ≤ w → XR.rerf w ≤ XR.rerf z + Real.exp (-z ^ 2) / √Real.pi := fun w hw => by
    have := ha (Set.mem_Ici.2 h) (Set.mem_Ici.2 (h.trans hw)) hw
    have h2 : 0 ≤ Real.exp (-w ^ 2) / √Real.pi := by positivity
    dsimp only at this
    linarith
  have := le_of_tendsto rerf_atTop (Filter.eventually_atTop.2 ⟨z, hl⟩)
  linarith

end Verif.PB
