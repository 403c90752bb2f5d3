import Verif.Lemmas.PolyBound

/-!
# How far `erf (x P(-log (1 - x²)))` can be from `x`

With `u = -log (1 - x²)` and `s = exp (-u)` the derivative of `erf (x P(u))` with respect to `x` is `2/√π exp (L(u))`, where
`L(u) = u - (1 - s) P(u)² + log Q(u)` and `Q = s P + 2 (1 - s) P'`. The derivative of `L` is `R / Q` with
`R = (2 + s) P' + 2 (1 - s) P'' - P Q²`. All of this is a polynomial in `u` and `s`; the kernel evaluates bounds of it on short intervals.
-/

namespace Verif.PB

/-- `Q` of the comment above. -/
noncomputable def fQ (c : List ℚ) (u : ℝ) : ℝ := Real.exp (-u) * pev c u + 2 * (1 - Real.exp (-u)) * pev (pder c) u

/-- `R` of the comment above. -/
noncomputable def fR (c : List ℚ) (u : ℝ) : ℝ :=
  (2 + Real.exp (-u)) * pev (pder c) u + 2 * (1 - Real.exp (-u)) * pev (pder (pder c)) u - pev c u * fQ c u ^ 2

/-- `L` of the comment above. -/
noncomputable def fL (c : List ℚ) (u : ℝ) : ℝ := u - (1 - Real.exp (-u)) * pev c u ^ 2 + Real.log (fQ c u)

theorem fQ_deriv (c : List ℚ) (u : ℝ) :
    HasDerivAt (fQ c) (-Real.exp (-u) * pev c u + 3 * Real.exp (-u) * pev (pder c) u + 2 * (1 - Real.exp (-u)) * pev (pder (pder c)) u) u := by
  have hs : HasDerivAt (fun u : ℝ => Real.exp (-u)) (Real.exp (-u) * -1) u := (hasDerivAt_neg u).exp
  have h := (hs.mul (pev_deriv c u)).add (((hs.const_sub 1).const_mul 2).mul (pev_deriv (pder c) u))
  refine HasDerivAt.congr_deriv h ?_
  ring

theorem fL_deriv (c : List ℚ) {u : ℝ} (h : 0 < fQ c u) : HasDerivAt (fL c) (fR c u / fQ c u) u := by
  have hs : HasDerivAt (fun u : ℝ => Real.exp (-u)) (Real.exp (-u) * -1) u := (hasDerivAt_neg u).exp
  have h1 := ((hasDerivAt_id u).sub ((hs.const_sub 1).mul ((pev_deriv c u).pow 2))).add ((fQ_deriv c u).log h.ne')
  refine HasDerivAt.congr_deriv h1 ?_
  rw [eq_div_iff h.ne', add_mul, div_mul_cancel₀ _ h.ne']
  unfold fR
  have e : fQ c u = Real.exp (-u) * pev c u + 2 * (1 - Real.exp (-u)) * pev (pder c) u := rfl
  simp only [Pi.pow_apply]
  push_cast
  rw [e]
  ring

/-- The check for one interval: centre `k/16`, half width `h`, bound `δ`. -/
def chk (c : List ℚ) (k : ℕ) (h δ : ℚ) : Bool :=
  let a : ℚ := k / 16
  let q := ek k
  let P := pshift a c
  let P1 := pshift a (pder c)
  let P2 := pshift a (pder (pder c))
  let S := psm q expTaylor
  let O := psm 2 (padd [1] (psm (-1) S))
  let Q := padd (pmul S P) (pmul O P1)
  let R := padd (padd (pmul (padd [2] S) P1) (pmul O P2)) (psm (-1) (pmul P (pmul Q Q)))
  let p := pabs h P
  let p1 := pabs h P1
  let p2 := pabs h P2
  let ε := 2e-13 + q * h ^ 7 / 4410
  decide (0 ≤ h ∧ h ≤ 1 / 8 ∧ k ≤ 900 ∧ 0 ≤ q ∧ q ≤ 1 ∧ 0 < plow h Q - ε * (p + 2 * p1) ∧ 0 ≤ δ ∧
    pabs h R + ε * (p1 + 2 * p2 + 4 * p * (p + 2 * p1) ^ 2) ≤ δ * (plow h Q - ε * (p + 2 * p1)))

theorem chk_sound {c : List ℚ} {k : ℕ} {h δ : ℚ} (hc : chk c k h δ = true) {u : ℝ} (hu : |u - k / 16| ≤ h) :
    0 < fQ c u ∧ |fR c u| ≤ δ * fQ c u := by
  unfold chk at hc
  simp only [decide_eq_true_eq] at hc
  obtain ⟨h0, h8, hk, q0, q1, hQ, hδ, hR⟩ := hc
  obtain ⟨v, hv⟩ : ∃ v, u - k / 16 = v := ⟨_, rfl⟩
  have hu' : u = ((k / 16 : ℚ) : ℝ) + v := by push_cast; linarith
  rw [hv] at hu
  have hh8 : (h : ℝ) ≤ 1 / 8 := by
    have := (Rat.cast_le (K := ℝ)).2 h8
    push_cast at this
    exact this
  have hh0 : (0 : ℝ) ≤ h := by exact_mod_cast h0
  have hv8 : |v| ≤ 1 / 8 := hu.trans hh8
  generalize hq : ek k = q at *
  generalize hε : (2e-13 + q * h ^ 7 / 4410 : ℚ) = ε at *
  have hq0 : (0 : ℝ) ≤ q := by exact_mod_cast q0
  have hq1 : (q : ℝ) ≤ 1 := by exact_mod_cast q1
  have hεr : (ε : ℝ) = 2e-13 + q * h ^ 7 / 4410 := by rw [← hε]; push_cast; norm_num
  have hε0 : (0 : ℝ) ≤ ε := by rw [hεr]; positivity
  -- the exponential
  obtain ⟨s, hs⟩ : ∃ s, Real.exp (-u) = s := ⟨_, rfl⟩
  obtain ⟨σ, hσ⟩ : ∃ σ, (q : ℝ) * pev expTaylor v = σ := ⟨_, rfl⟩
  have hs' : s = Real.exp (-(k / 16 : ℝ)) * Real.exp (-v) := by
    rw [← hs, ← Real.exp_add, hu']
    congr 1
    push_cast
    ring
  have ev : Real.exp (-v) ≤ 1.2 := by
    have h1 : -v ≤ 1 / 8 := (neg_le_abs v).trans hv8
    have h2 := Real.exp_bound (x := (1 / 8 : ℝ)) (by rw [abs_of_pos] <;> norm_num) (n := 3) (by norm_num)
    rw [abs_le] at h2
    simp only [Finset.sum_range_succ, Finset.sum_range_zero, Nat.factorial] at h2
    rw [abs_of_pos (by norm_num : (0 : ℝ) < 1 / 8)] at h2
    norm_num at h2
    exact (Real.exp_le_exp.2 h1).trans (by norm_num; linarith [h2.2])
  have ek1 : Real.exp (-(k / 16 : ℝ)) ≤ 1 := Real.exp_le_one_iff.2 (by rw [neg_nonpos]; positivity)
  have hs0 : 0 < s := by rw [← hs]; exact Real.exp_pos _
  have hs1 : s ≤ 1.2 := by
    rw [hs']
    calc _ ≤ 1 * 1.2 := mul_le_mul ek1 ev (Real.exp_pos _).le zero_le_one
      _ = 1.2 := by norm_num
  have hsσ : |s - σ| ≤ ε := by
    have e1 := ek_err hk
    have e2 := expTaylor_err (v := v) (hv8.trans (by norm_num))
    rw [hq] at e1
    have e3 : s - σ = (Real.exp (-(k / 16 : ℝ)) - q) * Real.exp (-v) + q * (Real.exp (-v) - pev expTaylor v) := by
      rw [hs', ← hσ]
      ring
    rw [e3, hεr]
    refine (abs_add_le _ _).trans (add_le_add ?_ ?_)
    · rw [abs_mul, abs_of_pos (Real.exp_pos (-v))]
      calc _ ≤ 1.5e-13 * 1.2 := mul_le_mul e1 ev (Real.exp_pos _).le (by norm_num)
        _ ≤ 2e-13 := by norm_num
    · rw [abs_mul, abs_of_nonneg hq0, mul_div_assoc]
      refine mul_le_mul_of_nonneg_left (e2.trans ?_) hq0
      exact div_le_div_of_nonneg_right (pow_le_pow_left₀ (abs_nonneg v) hu 7) (by norm_num)
  have hε1 : (ε : ℝ) ≤ 0.1 := by
    rw [hεr]
    have : (h : ℝ) ^ 7 ≤ (1 / 8) ^ 7 := pow_le_pow_left₀ hh0 hh8 7
    have : (q : ℝ) * h ^ 7 ≤ 1 * (1 / 8) ^ 7 := mul_le_mul hq1 this (by positivity) zero_le_one
    norm_num at this ⊢
    linarith
  have hσ1 : |σ| ≤ 1.3 ∧ |1 - σ| ≤ 1.1 := by
    rw [abs_le] at hsσ
    constructor <;> rw [abs_le] <;> constructor <;> norm_num at * <;> linarith [hsσ.1, hsσ.2]
  -- the polynomials
  obtain ⟨a, ha⟩ : ∃ a, pev c u = a := ⟨_, rfl⟩
  obtain ⟨b, hb⟩ : ∃ b, pev (pder c) u = b := ⟨_, rfl⟩
  obtain ⟨d, hd⟩ : ∃ d, pev (pder (pder c)) u = d := ⟨_, rfl⟩
  have pa : pev (pshift (k / 16) c) v = a := by rw [pev_shift, ← hu', ha]
  have pb : pev (pshift (k / 16) (pder c)) v = b := by rw [pev_shift, ← hu', hb]
  have pd : pev (pshift (k / 16) (pder (pder c))) v = d := by rw [pev_shift, ← hu', hd]
  have ba : |a| ≤ pabs h (pshift (k / 16) c) := by rw [← pa]; exact abs_pev_le _ hu
  have bb : |b| ≤ pabs h (pshift (k / 16) (pder c)) := by rw [← pb]; exact abs_pev_le _ hu
  have bd : |d| ≤ pabs h (pshift (k / 16) (pder (pder c))) := by rw [← pd]; exact abs_pev_le _ hu
  have hQe := plow_le (h := h) (padd (pmul (psm q expTaylor) (pshift (k / 16) c))
    (pmul (psm 2 (padd [1] (psm (-1) (psm q expTaylor)))) (pshift (k / 16) (pder c)))) hu
  have hRe := abs_pev_le (h := h) (padd (padd (pmul (padd [2] (psm q expTaylor)) (pshift (k / 16) (pder c)))
    (pmul (psm 2 (padd [1] (psm (-1) (psm q expTaylor)))) (pshift (k / 16) (pder (pder c)))))
    (psm (-1) (pmul (pshift (k / 16) c) (pmul (padd (pmul (psm q expTaylor) (pshift (k / 16) c))
    (pmul (psm 2 (padd [1] (psm (-1) (psm q expTaylor)))) (pshift (k / 16) (pder c))))
    (padd (pmul (psm q expTaylor) (pshift (k / 16) c))
    (pmul (psm 2 (padd [1] (psm (-1) (psm q expTaylor)))) (pshift (k / 16) (pder c)))))))) hu
  generalize plow h (padd (pmul (psm q expTaylor) (pshift (k / 16) c))
    (pmul (psm 2 (padd [1] (psm (-1) (psm q expTaylor)))) (pshift (k / 16) (pder c)))) = ql at *
  generalize pabs h (padd (padd (pmul (padd [2] (psm q expTaylor)) (pshift (k / 16) (pder c)))
    (pmul (psm 2 (padd [1] (psm (-1) (psm q expTaylor)))) (pshift (k / 16) (pder (pder c)))))
    (psm (-1) (pmul (pshift (k / 16) c) (pmul (padd (pmul (psm q expTaylor) (pshift (k / 16) c))
    (pmul (psm 2 (padd [1] (psm (-1) (psm q expTaylor)))) (pshift (k / 16) (pder c))))
    (padd (pmul (psm q expTaylor) (pshift (k / 16) c))
    (pmul (psm 2 (padd [1] (psm (-1) (psm q expTaylor)))) (pshift (k / 16) (pder c)))))))) = rl at *
  generalize pabs h (pshift (k / 16) c) = p at *
  generalize pabs h (pshift (k / 16) (pder c)) = p1 at *
  generalize pabs h (pshift (k / 16) (pder (pder c))) = p2 at *
  simp only [pev_add, pev_mul, pev_sm, pa, pb, pd, pev, hσ] at hQe hRe
  push_cast at hQe hRe
  have hQr : (0 : ℝ) < ql - ε * (p + 2 * p1) := by exact_mod_cast hQ
  have hRr : (rl : ℝ) + ε * (p1 + 2 * p2 + 4 * p * (p + 2 * p1) ^ 2) ≤ δ * (ql - ε * (p + 2 * p1)) := by exact_mod_cast hR
  have hδr : (0 : ℝ) ≤ δ := by exact_mod_cast hδ
  have hp0 : (0 : ℝ) ≤ p := (abs_nonneg a).trans ba
  have hp10 : (0 : ℝ) ≤ p1 := (abs_nonneg b).trans bb
  have hp20 : (0 : ℝ) ≤ p2 := (abs_nonneg d).trans bd
  -- the differences
  have eQ : fQ c u = s * a + 2 * (1 - s) * b := by unfold fQ; rw [hs, ha, hb]
  have eR : fR c u = (2 + s) * b + 2 * (1 - s) * d - a * (s * a + 2 * (1 - s) * b) ^ 2 := by unfold fR; rw [hs, ha, hb, hd, eQ]
  have dab : |a - 2 * b| ≤ p + 2 * p1 := by
    rw [abs_le] at ba bb ⊢
    constructor <;> linarith [ba.1, ba.2, bb.1, bb.2]
  have q1 : |(s - σ) * (a - 2 * b)| ≤ ε * (p + 2 * p1) := by
    rw [abs_mul]
    exact mul_le_mul hsσ dab (abs_nonneg _) hε0
  have hQlow : ql - ε * (p + 2 * p1) ≤ fQ c u := by
    rw [eQ]
    have := (abs_le.1 q1).1
    linarith
  have boundQ : ∀ x : ℝ, |x| ≤ 1.3 → |1 - x| ≤ 1.1 → |x * a + 2 * (1 - x) * b| ≤ 2 * (p + 2 * p1) := by
    intro x hx1 hx2
    refine (abs_add_le _ _).trans ?_
    rw [abs_mul, abs_mul, abs_mul, abs_two]
    have i1 := mul_le_mul hx1 ba (abs_nonneg _) (by norm_num)
    have i2 := mul_le_mul hx2 bb (abs_nonneg _) (by norm_num)
    linarith
  have hss : |s| ≤ 1.3 ∧ |1 - s| ≤ 1.1 := by
    constructor <;> rw [abs_le] <;> constructor <;> norm_num at * <;> linarith
  have hRdiff : |fR c u - ((2 + σ) * b + 2 * (1 - σ) * d - a * (σ * a + 2 * (1 - σ) * b) ^ 2)| ≤
      (ε : ℝ) * (p1 + 2 * p2 + 4 * p * (p + 2 * p1) ^ 2) := by
    have e : fR c u - ((2 + σ) * b + 2 * (1 - σ) * d - a * (σ * a + 2 * (1 - σ) * b) ^ 2) =
        (s - σ) * (b - 2 * d - a * ((s * a + 2 * (1 - s) * b) + (σ * a + 2 * (1 - σ) * b)) * (a - 2 * b)) := by
      rw [eR]
      ring
    rw [e, abs_mul]
    refine mul_le_mul hsσ ?_ (abs_nonneg _) hε0
    have b1 := boundQ s hss.1 hss.2
    have b2 := boundQ σ hσ1.1 hσ1.2
    have b3 : |(s * a + 2 * (1 - s) * b) + (σ * a + 2 * (1 - σ) * b)| ≤ 4 * (p + 2 * p1) := by
      refine (abs_add_le _ _).trans ?_
      linarith
    have b4 : |a * ((s * a + 2 * (1 - s) * b) + (σ * a + 2 * (1 - σ) * b)) * (a - 2 * b)| ≤ p * (4 * (p + 2 * p1)) * (p + 2 * p1) := by
      rw [abs_mul, abs_mul]
      exact mul_le_mul (mul_le_mul ba b3 (abs_nonneg _) hp0) dab (abs_nonneg _) (by positivity)
    calc |b - 2 * d - a * ((s * a + 2 * (1 - s) * b) + (σ * a + 2 * (1 - σ) * b)) * (a - 2 * b)|
        ≤ |b - 2 * d| + |a * ((s * a + 2 * (1 - s) * b) + (σ * a + 2 * (1 - σ) * b)) * (a - 2 * b)| := abs_sub _ _
      _ ≤ (p1 + 2 * p2) + p * (4 * (p + 2 * p1)) * (p + 2 * p1) := by
        refine add_le_add ?_ b4
        rw [abs_le] at bb bd ⊢
        constructor <;> linarith [bb.1, bb.2, bd.1, bd.2]
      _ = p1 + 2 * p2 + 4 * p * (p + 2 * p1) ^ 2 := by ring
  refine ⟨hQr.trans_le hQlow, ?_⟩
  have hRσ : |(2 + σ) * b + 2 * (1 - σ) * d - a * (σ * a + 2 * (1 - σ) * b) ^ 2| ≤ (rl : ℝ) := by
    refine le_trans (le_of_eq ?_) hRe
    congr 1
    ring
  calc |fR c u| ≤ (rl : ℝ) + ε * (p1 + 2 * p2 + 4 * p * (p + 2 * p1) ^ 2) := by
        rw [abs_le] at hRdiff hRσ ⊢
        constructor <;> linarith [hRdiff.1, hRdiff.2, hRσ.1, hRσ.2]
    _ ≤ δ * (ql - ε * (p + 2 * p1)) := hRr
    _ ≤ δ * fQ c u := mul_le_mul_of_nonneg_left hQlow hδr

/-- The checks for consecutive intervals of width `2 w / 16`. -/
def chkAll (c : List ℚ) (w : ℕ) : ℕ → List ℚ → Bool
  | _, [] => true
  | k, δ :: ds => chk c k (w / 16) δ && chkAll c w (k + 2 * w) ds

theorem chkAll_sound {c : List ℚ} {w : ℕ} (ds : List ℚ) : ∀ k : ℕ, chkAll c w k ds = true →
    ∀ u : ℝ, (k - w : ℝ) / 16 ≤ u → u ≤ (k - w : ℝ) / 16 + ds.length * (2 * w / 16) → ds ≠ [] →
      0 < fQ c u ∧ |fL c u - fL c ((k - w : ℝ) / 16)| ≤ (ds.sum : ℚ) * (2 * w / 16) := by
  induction ds with
  | nil => intro k _ u _ _ h; exact absurd rfl h
  | cons δ ds ih =>
    intro k hk u h1 h2 _
    rw [chkAll, Bool.and_eq_true] at hk
    obtain ⟨hk1, hk2⟩ := hk
    have hw : (0 : ℝ) ≤ w := Nat.cast_nonneg w
    have hin : ∀ x ∈ Set.Icc ((k - w : ℝ) / 16) ((k + w : ℝ) / 16), |x - k / 16| ≤ ((w / 16 : ℚ) : ℝ) := by
      intro x hx
      push_cast
      rw [abs_le]
      constructor <;> linarith [hx.1, hx.2]
    have hδ : (0 : ℝ) ≤ δ := by
      unfold chk at hk1
      simp only [decide_eq_true_eq] at hk1
      exact_mod_cast hk1.2.2.2.2.2.2.1
    have hfirst : ∀ x ∈ Set.Icc ((k - w : ℝ) / 16) ((k + w : ℝ) / 16), ∀ y ∈ Set.Icc ((k - w : ℝ) / 16) ((k + w : ℝ) / 16),
        |fL c y - fL c x| ≤ δ * |y - x| := by
      intro x hx y hy
      have := Convex.norm_image_sub_le_of_norm_hasDerivWithin_le (f := fL c) (f' := fun x => fR c x / fQ c x) (C := (δ : ℝ))
        (s := Set.Icc ((k - w : ℝ) / 16) ((k + w : ℝ) / 16))
        (fun z hz => (fL_deriv c (chk_sound hk1 (hin z hz)).1).hasDerivWithinAt)
        (fun z hz => by
          obtain ⟨hp, hb⟩ := chk_sound hk1 (hin z hz)
          rw [Real.norm_eq_abs, abs_div, abs_of_pos hp, div_le_iff₀ hp]
          exact hb) (convex_Icc _ _) hx hy
      simpa [Real.norm_eq_abs] using this
    have hl : (k - w : ℝ) / 16 ∈ Set.Icc ((k - w : ℝ) / 16) ((k + w : ℝ) / 16) := ⟨le_rfl, by linarith⟩
    have hr : (k + w : ℝ) / 16 ∈ Set.Icc ((k - w : ℝ) / 16) ((k + w : ℝ) / 16) := ⟨by linarith, le_rfl⟩
    have hsum : (0 : ℝ) ≤ ((ds.sum : ℚ) : ℝ) * (2 * w / 16) := by
      cases ds with
      | nil => simp
      | cons d ds =>
        have := (ih (k + 2 * w) hk2 (((k + 2 * w : ℕ) - w : ℝ) / 16) le_rfl (by
          have : (0 : ℝ) ≤ ((d :: ds).length : ℝ) * (2 * w / 16) := by positivity
          linarith) (by simp)).2
        exact (abs_nonneg _).trans this
    rw [List.sum_cons, Rat.cast_add, add_mul]
    rcases le_total u ((k + w : ℝ) / 16) with hu | hu
    · refine ⟨(chk_sound hk1 (hin u ⟨h1, hu⟩)).1, ?_⟩
      have h3 := hfirst _ hl u ⟨h1, hu⟩
      have h4 : δ * |u - (k - w : ℝ) / 16| ≤ δ * (2 * w / 16) := by
        refine mul_le_mul_of_nonneg_left ?_ hδ
        rw [abs_of_nonneg (by linarith)]
        linarith
      linarith
    · by_cases hds : ds = []
      · subst hds
        have hu' : u = (k + w : ℝ) / 16 := by
          simp only [List.length_cons, List.length_nil] at h2
          push_cast at h2
          linarith
        subst hu'
        refine ⟨(chk_sound hk1 (hin _ hr)).1, ?_⟩
        have h3 := hfirst _ hl _ hr
        have h4 : δ * |(k + w : ℝ) / 16 - (k - w : ℝ) / 16| ≤ δ * (2 * w / 16) := by
          refine mul_le_mul_of_nonneg_left ?_ hδ
          rw [abs_of_nonneg (by linarith)]
          linarith
        linarith
      · have hstart : (((k + 2 * w : ℕ) : ℝ) - w) / 16 = (k + w : ℝ) / 16 := by push_cast; ring
        obtain ⟨g1, g2⟩ := ih (k + 2 * w) hk2 u (by rw [hstart]; exact hu) (by
          rw [hstart]
          rw [List.length_cons] at h2
          push_cast at h2
          linarith) hds
        refine ⟨g1, ?_⟩
        rw [hstart] at g2
        have h3 := hfirst _ hl _ hr
        have h4 : δ * |(k + w : ℝ) / 16 - (k - w : ℝ) / 16| = δ * (2 * w / 16) := by
          rw [abs_of_nonneg (by linarith)]
          ring
        rw [h4] at h3
        have h5 := abs_sub_le (fL c u) (fL c ((k + w : ℝ) / 16)) (fL c ((k - w : ℝ) / 16))
        linarith

end Verif.PB
