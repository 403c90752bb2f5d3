import Mathlib.Analysis.Complex.ExponentialBounds
import Verif.Lemmas.LocusDef

/-!
# The black body locus: the natural numbers and Planck's law
-/

namespace Verif.LT

open EF

/-- The second radiation constant in nm K. -/
noncomputable def cA : ℝ := 14387863.142323088

/-- Planck's law up to a constant, at `n` nanometres. -/
noncomputable def bb (T n : ℝ) : ℝ := 1 / (n ^ 5 * (Real.exp (cA / (n * T)) - 1))

/-- The scale of the natural numbers for the temperature `T`. -/
noncomputable def scl (T : ℝ) : ℝ := 1e46 * Real.exp (cA / (830 * T))

theorem scl_pos (T : ℝ) : 0 < scl T := by unfold scl; positivity

theorem exp_lip {a b : ℝ} (ha : 0 ≤ a) (hab : a ≤ b) : |Real.exp (-a) - Real.exp (-b)| ≤ b - a := by
  have e : Real.exp (-b) = Real.exp (-a) * Real.exp (-(b - a)) := by rw [← Real.exp_add]; ring_nf
  have h1 : Real.exp (-a) ≤ 1 := by rw [Real.exp_le_one_iff]; linarith
  have h2 : Real.exp (-(b - a)) ≤ 1 := by rw [Real.exp_le_one_iff]; linarith
  have h3 := Real.add_one_le_exp (-(b - a))
  have h0 := Real.exp_pos (-a)
  rw [e, abs_of_nonneg (by nlinarith)]
  nlinarith

theorem expN_div {a b : ℕ} (hb : 0 < b) (h : (a : ℝ) / b ≤ 31) :
    expN (one * a / (b * 4096)) ≤ one ∧ |(expN (one * a / (b * 4096)) : ℝ) / one - Real.exp (-((a : ℝ) / b))| ≤ 6e-21 := by
  have hb' : (0 : ℝ) < b := by exact_mod_cast hb
  obtain ⟨N, hN⟩ : ∃ N, one * a / (b * 4096) = N := ⟨_, rfl⟩
  obtain ⟨d1, d2⟩ := div_close (one * a) (b * 4096) (by positivity)
  rw [hN] at d1 d2 ⊢
  have e : ((one * a : ℕ) : ℝ) / (b * 4096 : ℕ) = one * (a / b) / 4096 := by push_cast; field_simp
  rw [e] at d1 d2
  obtain ⟨x, hx⟩ : ∃ x : ℝ, (a : ℝ) / b = x := ⟨_, rfl⟩
  have x0 : 0 ≤ x := by rw [← hx]; positivity
  rw [hx] at h d1 d2 ⊢
  have ho := one_val
  have hr : 128 * N ≤ one := by
    have : (128 : ℝ) * N ≤ one := by
      rw [ho] at d1 ⊢
      nlinarith
    exact_mod_cast this
  obtain ⟨c1, c2⟩ := expN_close hr
  refine ⟨c1, ?_⟩
  obtain ⟨y, hy⟩ : ∃ y : ℝ, 4096 * ((N : ℝ) / one) = y := ⟨_, rfl⟩
  have y0 : 0 ≤ y := by rw [← hy]; positivity
  have hyx : y ≤ x := by
    rw [← hy, ← mul_div_assoc, div_le_iff₀ one_pos']
    linarith
  have hxy : x ≤ y + 4096e-30 := by
    have : y * one = 4096 * N := by rw [← hy]; field_simp [one_pos'.ne']
    rw [ho] at this d2
    nlinarith
  rw [hy] at c2
  have := exp_lip y0 hyx
  have t := abs_sub_le ((expN N : ℝ) / one) (Real.exp (-y)) (Real.exp (-x))
  refine t.trans ?_
  norm_num at c2 hxy ⊢
  linarith

/-- A quotient of approximations. -/
theorem quot_close {F f E e g p : ℝ} (hF : 1e-10 ≤ F) (hf : |f - F| ≤ 6e-21) (hE0 : 0 ≤ E) (hE : E ≤ 0.43) (he : |e - E| ≤ 2e-20)
    (hg : 0 < g) (hg' : g ≤ 1e15) (h1 : p ≤ 1e46 * f / (g * (1 - e))) (h2 : 1e46 * f / (g * (1 - e)) < p + 1) :
    |p - 1e46 * (F / (g * (1 - E)))| ≤ 1e-10 * (1e46 * (F / (g * (1 - E)))) := by
  rw [abs_le] at hf he
  have k1 : 0 < 1 - E := by norm_num at hE ⊢; linarith
  have k2 : 0 < 1 - e := by norm_num at hE he ⊢; linarith
  have k3 : (0.5 : ℝ) ≤ 1 - e := by norm_num at hE he ⊢; linarith
  have F0 : 0 < F := by norm_num at hF; linarith
  obtain ⟨V, hV⟩ : ∃ V, F / (g * (1 - E)) = V := ⟨_, rfl⟩
  have hVe : V * (g * (1 - E)) = F := by rw [← hV]; field_simp
  have V0 : 0 < V := by rw [← hV]; positivity
  rw [hV]
  have q1 : f ≤ F * (1 + 6.1e-11) := by norm_num at hf hF ⊢; linarith [hf.2]
  have q2 : F * (1 - 6.1e-11) ≤ f := by norm_num at hf hF ⊢; linarith [hf.1]
  have V1 : 1e-26 ≤ V := by
    rw [← hV, le_div_iff₀ (by positivity)]
    have : g * (1 - E) ≤ 1e15 * 1 := mul_le_mul hg' (by linarith) k1.le (by norm_num)
    norm_num at this hF ⊢
    linarith
  have r1 : 1e46 * f / (g * (1 - e)) ≤ 1e46 * V * (1 + 7e-11) := by
    rw [div_le_iff₀ (by positivity)]
    have : f ≤ V * (1 + 7e-11) * (g * (1 - e)) := by
      refine q1.trans ?_
      rw [← hVe]
      have : (1 - E) * (1 + 6.1e-11) ≤ (1 + 7e-11) * (1 - e) := by norm_num at he hE ⊢; linarith [he.1, he.2]
      have := mul_le_mul_of_nonneg_left this (mul_pos V0 hg).le
      linarith
    nlinarith
  have r2 : 1e46 * V * (1 - 7e-11) ≤ 1e46 * f / (g * (1 - e)) := by
    rw [le_div_iff₀ (by positivity)]
    have : V * (1 - 7e-11) * (g * (1 - e)) ≤ f := by
      refine le_trans ?_ q2
      rw [← hVe]
      have : (1 - 7e-11) * (1 - e) ≤ (1 - E) * (1 - 6.1e-11) := by norm_num at he hE ⊢; linarith [he.1, he.2]
      have := mul_le_mul_of_nonneg_left this (mul_pos V0 hg).le
      linarith
    nlinarith
  rw [abs_le]
  norm_num at r1 r2 V1 ⊢
  constructor <;> linarith

theorem exp_low : (1e-10 : ℝ) ≤ Real.exp (-23) := by
  have h := Real.exp_one_lt_d9
  have : Real.exp (-23) = (Real.exp 1 ^ 23)⁻¹ := by rw [Real.exp_neg, ← Real.exp_nat_mul]; norm_num
  rw [this, le_inv_comm₀ (by norm_num) (by positivity)]
  calc Real.exp 1 ^ 23 ≤ 2.7182818286 ^ 23 := pow_le_pow_left₀ (Real.exp_pos 1).le h.le 23
    _ ≤ _ := by norm_num

theorem exp_top : Real.exp (-0.85) ≤ (0.43 : ℝ) := by
  have h4 := Real.sum_le_exp_of_nonneg (x := 0.85) (by norm_num) 6
  rw [Real.exp_neg, inv_le_comm₀ (by positivity) (by norm_num)]
  refine le_trans ?_ h4
  norm_num [Finset.sum_range_succ, Nat.factorial]

/-- The natural number for one wavelength. -/
theorem val_close {τ n : ℕ} {T : ℝ} (hT : T = (τ : ℝ) / 1000000) (h1 : 990 ≤ T) (h2 : T ≤ 20200) (hn1 : 360 ≤ n) (hn2 : n ≤ 830) :
    |(val τ (edge τ) n : ℝ) - scl T * bb T n| ≤ 1e-10 * (scl T * bb T n) := by
  have T0 : 0 < T := by linarith
  have hτ : (0 : ℝ) < τ := by
    by_contra h
    have : (τ : ℝ) / 1000000 ≤ 0 := div_nonpos_of_nonpos_of_nonneg (not_lt.1 h) (by norm_num)
    linarith
  have hτn : 0 < τ := by exact_mod_cast hτ
  have n0 : 0 < n := by omega
  have nr : (0 : ℝ) < n := by exact_mod_cast n0
  have nr1 : (360 : ℝ) ≤ n := by exact_mod_cast hn1
  have nr2 : (n : ℝ) ≤ 830 := by exact_mod_cast hn2
  obtain ⟨y, hy⟩ : ∃ y, cA / (830 * T) = y := ⟨_, rfl⟩
  obtain ⟨δ, hδ⟩ : ∃ δ, cA * (830 - n) / (n * 830 * T) = δ := ⟨_, rfl⟩
  have hx : cA / (n * T) = δ + y := by
    rw [← hδ, ← hy]
    field_simp
    ring
  have δ0 : 0 ≤ δ := by
    rw [← hδ]
    have : 0 ≤ 830 - (n : ℝ) := by linarith
    have : 0 < cA := by norm_num [cA]
    positivity
  have δ1 : δ ≤ 23 := by
    rw [← hδ, div_le_iff₀ (by positivity)]
    have a1 : cA * (830 - n) ≤ cA * 470 := mul_le_mul_of_nonneg_left (by linarith) (by norm_num [cA])
    have a2 : 360 * 830 * 990 ≤ n * 830 * T := mul_le_mul (by linarith) h1 (by norm_num) (by positivity)
    norm_num [cA] at a1 a2 ⊢
    linarith
  have y1 : y ≤ 23 := by
    rw [← hy, div_le_iff₀ (by positivity)]
    norm_num [cA]
    linarith
  have xl : 0.85 ≤ δ + y := by
    rw [← hx, le_div_iff₀ (by positivity)]
    have a2 : n * T ≤ 830 * 20200 := mul_le_mul nr2 h2 T0.le (by norm_num)
    norm_num [cA] at a2 ⊢
    linarith
  have ey : ((c2 : ℕ) : ℝ) / ((1000 * 830 * τ : ℕ) : ℝ) = y := by
    rw [← hy, hT]
    push_cast
    norm_num [c2, cA]
    field_simp
    norm_num
  have eδ : ((c2 * (830 - n) : ℕ) : ℝ) / ((1000 * n * 830 * τ : ℕ) : ℝ) = δ := by
    rw [← hδ, hT]
    push_cast [Nat.cast_sub hn2]
    norm_num [c2, cA]
    field_simp
    ring
  obtain ⟨e1, e2⟩ := expN_div (a := c2) (b := 1000 * 830 * τ) (by positivity) (by rw [ey]; linarith)
  obtain ⟨f1, f2⟩ := expN_div (a := c2 * (830 - n)) (b := 1000 * n * 830 * τ) (by positivity) (by rw [eδ]; linarith)
  rw [ey] at e2
  rw [eδ] at f2
  unfold val
  rw [frc_eq, mul_assoc one c2]
  have hedge : edge τ = expN (one * c2 / (1000 * 830 * τ * 4096)) := rfl
  rw [← hedge] at e1 e2
  obtain ⟨er, her⟩ : ∃ er, edge τ = er := ⟨_, rfl⟩
  rw [her] at e1 e2 ⊢
  obtain ⟨f, hf⟩ : ∃ f, expN (one * (c2 * (830 - n)) / (1000 * n * 830 * τ * 4096)) = f := ⟨_, rfl⟩
  rw [hf] at f1 f2 ⊢
  have hbb : scl T * bb T n = 1e46 * (Real.exp (-δ) / ((n : ℝ) ^ 5 * (1 - Real.exp (-(δ + y))))) := by
    unfold scl bb
    rw [hx, hy]
    have g1 : Real.exp (-(δ + y)) = Real.exp (-δ) * Real.exp (-y) := by rw [← Real.exp_add]; ring_nf
    have g2 : Real.exp (δ + y) = (Real.exp (-δ) * Real.exp (-y))⁻¹ := by rw [← g1, Real.exp_neg, inv_inv]
    have g3 : Real.exp y = (Real.exp (-y))⁻¹ := by rw [Real.exp_neg, inv_inv]
    have g4 : Real.exp (-δ) * Real.exp (-y) < 1 := by
      rw [← g1, Real.exp_lt_one_iff]
      norm_num at xl ⊢
      linarith
    rw [g1, g2, g3]
    have p1 := Real.exp_pos (-δ)
    have p2 := Real.exp_pos (-y)
    have p3 : 1 - Real.exp (-δ) * Real.exp (-y) ≠ 0 := by linarith
    have p4 : (Real.exp (-δ) * Real.exp (-y))⁻¹ - 1 ≠ 0 := by
      have : (Real.exp (-δ) * Real.exp (-y))⁻¹ - 1 = (1 - Real.exp (-δ) * Real.exp (-y)) / (Real.exp (-δ) * Real.exp (-y)) := by
        field_simp
      rw [this]
      exact div_ne_zero p3 (by positivity)
    field_simp
  rw [hbb]
  -- the product of the two exponentials
  obtain ⟨w, hw⟩ : ∃ w, f * er / one = w := ⟨_, rfl⟩
  rw [hw]
  have hone : 0 < one := by norm_num [one]
  obtain ⟨w1, w2⟩ := div_close (f * er) one hone
  rw [hw] at w1 w2
  have f1' : (f : ℝ) / one ≤ 1 := by rw [div_le_one one_pos']; exact_mod_cast f1
  have e1' : (er : ℝ) / one ≤ 1 := by rw [div_le_one one_pos']; exact_mod_cast e1
  have hwle : w ≤ one := by
    rw [← hw]
    exact Nat.div_le_of_le_mul (Nat.mul_le_mul f1 e1)
  have hδl : (1e-10 : ℝ) ≤ Real.exp (-δ) := exp_low.trans (Real.exp_le_exp.2 (by linarith))
  have hwE : |(w : ℝ) / one - Real.exp (-(δ + y))| ≤ 2e-20 := by
    have g1 : Real.exp (-(δ + y)) = Real.exp (-δ) * Real.exp (-y) := by rw [← Real.exp_add]; ring_nf
    have hm : (((f * er : ℕ) : ℝ) / one) / one = (f / one) * (er / one) := by push_cast; field_simp
    have b1 : (w : ℝ) / one ≤ (f / one) * (er / one) := by
      rw [← hm]
      exact div_le_div_of_nonneg_right w1 one_pos'.le
    have b2 : (f / one) * (er / one) ≤ (w : ℝ) / one + 1e-30 := by
      rw [← hm, div_le_iff₀ one_pos', add_mul, div_mul_cancel₀ _ one_pos'.ne', one_unit]
      exact w2.le
    rw [g1]
    obtain ⟨a, ha⟩ : ∃ a : ℝ, (f : ℝ) / one = a := ⟨_, rfl⟩
    obtain ⟨b, hb⟩ : ∃ b : ℝ, (er : ℝ) / one = b := ⟨_, rfl⟩
    have b0 : 0 ≤ b := by rw [← hb]; positivity
    rw [ha, hb] at b1 b2
    rw [ha] at f2 f1'
    rw [hb] at e2 e1'
    have p1 := Real.exp_pos (-δ)
    have q1 : Real.exp (-δ) ≤ 1 := by rw [Real.exp_le_one_iff]; linarith
    obtain ⟨F, hF⟩ : ∃ F, Real.exp (-δ) = F := ⟨_, rfl⟩
    obtain ⟨G, hG⟩ : ∃ G, Real.exp (-y) = G := ⟨_, rfl⟩
    rw [hF] at f2 p1 q1 ⊢
    rw [hG] at e2 ⊢
    have t : |a * b - F * G| ≤ 1.2e-20 := by
      have : a * b - F * G = (a - F) * b + F * (b - G) := by ring
      rw [this]
      refine (abs_add_le _ _).trans ?_
      rw [abs_mul, abs_mul, abs_of_nonneg b0, abs_of_pos p1]
      have := mul_le_mul f2 e1' b0 (by norm_num)
      have := mul_le_mul q1 e2 (abs_nonneg _) (by norm_num)
      norm_num at *
      linarith
    rw [abs_le] at t ⊢
    norm_num at *
    constructor <;> linarith [t.1, t.2]
  have g0 : 0 < n ^ 5 * (one - w) := by
    have : w < one := by
      have : (w : ℝ) / one < 1 := by
        have := abs_le.1 hwE
        have E43 : Real.exp (-(δ + y)) ≤ 0.43 := (Real.exp_le_exp.2 (by linarith)).trans exp_top
        norm_num at *
        linarith [this.2]
      rw [div_lt_one one_pos'] at this
      exact_mod_cast this
    have : 0 < one - w := by omega
    positivity
  obtain ⟨v1, v2⟩ := div_close (f * (10000000000000000 * one)) (n ^ 5 * (one - w)) g0
  have hv : ((f * (10000000000000000 * one) : ℕ) : ℝ) / ((n ^ 5 * (one - w) : ℕ) : ℝ) =
      1e46 * (f / one) / ((n : ℝ) ^ 5 * (1 - w / one)) := by
    push_cast [Nat.cast_sub hwle]
    have hd : ((one : ℕ) : ℝ) - w ≠ 0 := by
      have : w < one := by
        by_contra hc
        have : one - w = 0 := by omega
        rw [this] at g0
        simp at g0
      have : (w : ℝ) < one := by exact_mod_cast this
      linarith
    have hd2 : (1 : ℝ) - w / one = (one - w) / one := by field_simp [one_pos'.ne']
    rw [hd2]
    have := one_pos'.ne'
    rw [show (1e46 : ℝ) = 10000000000000000 * one by rw [one_val]; norm_num]
    field_simp
  rw [hv] at v1 v2
  refine quot_close hδl f2 (Real.exp_pos _).le ((Real.exp_le_exp.2 (by linarith)).trans exp_top) hwE (by positivity) ?_ v1 v2
  calc (n : ℝ) ^ 5 ≤ 830 ^ 5 := pow_le_pow_left₀ nr.le nr2 5
    _ ≤ _ := by norm_num

end Verif.LT
