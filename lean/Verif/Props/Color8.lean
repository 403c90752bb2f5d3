import Verif.Props.Color6

/-!
# The colour matching functions of the observers: flat light is white, and the shape of x̄ and z̄ (C170)
-/

namespace Verif

open Out XR

/-- The spectrum with the same value `s` at every point of the 5 nm grid from 360 nm to 830 nm. -/
noncomputable def flatLight (s : ℝ) : List (ℕ × ℝ) := (List.range 95).map fun k => (gridNm k, s)

theorem obs_sums (obs : Obs) : |((clrObsGet obs).map (·.1)).sum - ((clrObsGet obs).map (·.2.1)).sum| ≤ 1.3e-4 * ((clrObsGet obs).map (·.2.1)).sum ∧
    |((clrObsGet obs).map (·.2.2)).sum - ((clrObsGet obs).map (·.2.1)).sum| ≤ 1.3e-4 * ((clrObsGet obs).map (·.2.1)).sum ∧
    0 < ((clrObsGet obs).map (·.2.1)).sum ∧ (clrObsGet obs).length = 95 := by
  cases obs <;> decide +kernel

theorem list_range_getD {α : Type} (l : List α) (d : α) : (List.range l.length).map (fun k => l.getD k d) = l := by
  refine List.ext_getElem (by simp) fun i h1 h2 => ?_
  simp [h2]

theorem response_flat (obs : Obs) (s : ℝ) (f : ℝ × ℝ × ℝ → ℝ) (g : ℚ × ℚ × ℚ → ℚ) (hfg : ∀ r : ℚ × ℚ × ℚ, f (r.1, r.2.1, r.2.2) = g r) :
    response obs f (flatLight s) = s * (((clrObsGet obs).map g).sum : ℚ) := by
  have hu : usable (flatLight s) = flatLight s := by
    unfold usable flatLight
    rw [List.filter_eq_self]
    intro c hc
    obtain ⟨k, hk, rfl⟩ := List.mem_map.1 hc
    have := List.mem_range.1 hk
    rw [decide_eq_true_eq]
    unfold gridNm
    omega
  have hl := (obs_sums obs).2.2.2
  unfold response
  rw [hu, flatLight, List.map_map]
  have e : ((fun c : ℕ × ℝ => c.2 * f (cmf obs c.1)) ∘ fun k => (gridNm k, s)) = fun k => s * ((g ((clrObsGet obs).getD k (0, 0, 0)) : ℚ) : ℝ) := by
    funext k
    have : (gridNm k - 360) / 5 = k := by unfold gridNm; omega
    simp only [Function.comp, cmf, this, hfg]
  rw [e, List.sum_map_mul_left]
  congr 1
  have e2 := list_range_getD (clrObsGet obs) (0, 0, 0)
  rw [hl] at e2
  conv_rhs => rw [← e2]
  rw [List.map_map, ← Rat.coe_castHom, map_list_sum, List.map_map]
  rfl

/-- C170. Light with the same power at every wavelength is white for both observers: `zsl_clr_conv_spd_xyz` gives X and Z within 0.00013 of Y, which is 1. -/
theorem flat_light_white (obs : Obs) (s : ℝ) (hs : 0 < s) (t : List (ℕ × XR)) :
    ∃ X Z : ℝ, clrSpdXyz (Spd.emb (flatLight s) t) obs = ok (0, Xyz.emb ⟨X, 1, Z, obs, .A, false, false, false⟩) ∧ |X - 1| ≤ 1.3e-4 ∧ |Z - 1| ≤ 1.3e-4 := by
  obtain ⟨h1, h2, h3, -⟩ := obs_sums obs
  have hx := response_flat obs s (·.1) (·.1) (fun _ => rfl)
  have hy := response_flat obs s (·.2.1) (·.2.1) (fun _ => rfl)
  have hz := response_flat obs s (·.2.2) (·.2.2) (fun _ => rfl)
  have h1 := (Rat.cast_le (K := ℝ)).2 h1
  have h2 := (Rat.cast_le (K := ℝ)).2 h2
  have h3 := (Rat.cast_lt (K := ℝ)).2 h3
  rw [Rat.cast_zero] at h3
  rw [Rat.cast_abs, Rat.cast_sub, Rat.cast_mul] at h1 h2
  have key : ∀ a b : ℝ, 0 < b → |a - b| ≤ ((1.3e-4 : ℚ) : ℝ) * b → |s * a / (s * b) - 1| ≤ 1.3e-4 := by
    intro a b hb h
    rw [mul_div_mul_left _ _ hs.ne', div_sub_one hb.ne', abs_div, abs_of_pos hb, div_le_iff₀ hb]
    refine h.trans (le_of_eq ?_)
    norm_num
  refine ⟨_, _, spd_xyz_correct _ t obs (by rw [hy]; exact (mul_pos hs h3).ne'), ?_, ?_⟩
  · rw [hx, hy]
    exact key _ _ h3 h1
  · rw [hz, hy]
    exact key _ _ h3 h2

/-- Whether `f` rises from the `i`-th grid point to the next, or falls. -/
def Rises (obs : Obs) (f : ℝ × ℝ × ℝ → ℝ) (i : ℕ) : Prop := f (cmf obs (gridNm i)) ≤ f (cmf obs (gridNm (i + 1)))
def Falls (obs : Obs) (f : ℝ × ℝ × ℝ → ℝ) (i : ℕ) : Prop := f (cmf obs (gridNm (i + 1))) ≤ f (cmf obs (gridNm i))

/-- The wavelengths at which the x function turns: its blue peak, its minimum and its orange peak. -/
def xTurns : Obs → ℕ × ℕ × ℕ
  | .deg2 => (440, 505, 600)
  | .deg10 => (445, 500, 595)

theorem xbar_steps (obs : Obs) : ∀ i < 94, ¬(obs = .deg2 ∧ i = 80) →
    if 360 + 5 * i < (xTurns obs).1 ∨ ((xTurns obs).2.1 ≤ 360 + 5 * i ∧ 360 + 5 * i < (xTurns obs).2.2) then ((clrObsGet obs).getD i (0, 0, 0)).1 ≤ ((clrObsGet obs).getD (i + 1) (0, 0, 0)).1
    else ((clrObsGet obs).getD (i + 1) (0, 0, 0)).1 ≤ ((clrObsGet obs).getD i (0, 0, 0)).1 := by
  cases obs <;> decide +kernel

theorem zbar_steps (obs : Obs) : ∀ i < 94, ¬(obs = .deg2 ∧ (i = 3 ∨ i = 53)) →
    if 360 + 5 * i < 445 then ((clrObsGet obs).getD i (0, 0, 0)).2.2 ≤ ((clrObsGet obs).getD (i + 1) (0, 0, 0)).2.2
    else ((clrObsGet obs).getD (i + 1) (0, 0, 0)).2.2 ≤ ((clrObsGet obs).getD i (0, 0, 0)).2.2 := by
  cases obs <;> decide +kernel

/-- C170. The x functions of both observers have two humps: they rise up to 440 nm (445 nm for the 10° observer), fall up to 505 nm (500 nm), rise up to 600 nm (595 nm) and fall beyond.
Missing: the step from 760 nm to 765 nm of the 2° observer, where the table rises (`observer_bump`). -/
theorem xbar_shape_partial (obs : Obs) {i : ℕ} (hi : i < 94) (hne : ¬(obs = .deg2 ∧ gridNm i = 760)) :
    (gridNm i < (xTurns obs).1 → Rises obs (·.1) i) ∧ ((xTurns obs).1 ≤ gridNm i → gridNm i < (xTurns obs).2.1 → Falls obs (·.1) i) ∧
    ((xTurns obs).2.1 ≤ gridNm i → gridNm i < (xTurns obs).2.2 → Rises obs (·.1) i) ∧ ((xTurns obs).2.2 ≤ gridNm i → Falls obs (·.1) i) := by
  have e : ∀ j, (gridNm j - 360) / 5 = j := by intro j; unfold gridNm; omega
  have h := xbar_steps obs i hi (by unfold gridNm at hne; rintro ⟨h1, h2⟩; exact hne ⟨h1, by omega⟩)
  have ht : (xTurns obs).1 < (xTurns obs).2.1 ∧ (xTurns obs).2.1 < (xTurns obs).2.2 := by cases obs <;> decide
  unfold Rises Falls cmf
  simp only [e]
  unfold gridNm
  refine ⟨fun a => ?_, fun a b => ?_, fun a b => ?_, fun a => ?_⟩
  · rw [if_pos (Or.inl a)] at h
    exact_mod_cast h
  · rw [if_neg (by omega)] at h
    exact_mod_cast h
  · rw [if_pos (Or.inr ⟨a, b⟩)] at h
    exact_mod_cast h
  · rw [if_neg (by omega)] at h
    exact_mod_cast h

/-- C170. The z functions of both observers rise up to 445 nm and fall beyond. Missing: two steps of the 2° observer, from 375 nm to 380 nm, where the table falls (`observer_dip`), and from
625 nm to 630 nm, where it rises (`observer_step`). -/
theorem zbar_shape_partial (obs : Obs) {i : ℕ} (hi : i < 94) (hne : ¬(obs = .deg2 ∧ (gridNm i = 375 ∨ gridNm i = 625))) :
    (gridNm i < 445 → Rises obs (·.2.2) i) ∧ (445 ≤ gridNm i → Falls obs (·.2.2) i) := by
  have e : ∀ j, (gridNm j - 360) / 5 = j := by intro j; unfold gridNm; omega
  have h := zbar_steps obs i hi (by unfold gridNm at hne; rintro ⟨h1, h2⟩; exact hne ⟨h1, by omega⟩)
  unfold Rises Falls cmf
  simp only [e]
  unfold gridNm
  refine ⟨fun a => ?_, fun a => ?_⟩
  · rw [if_pos a] at h
    exact_mod_cast h
  · rw [if_neg (by omega)] at h
    exact_mod_cast h

/-- C170. The z function of the 2° observer jumps up fivefold at 630 nm, on its way down to zero at 650 nm: 0.0001 is tabulated at 625 nm and 0.0005 at 630 nm. (The entries from 630 nm to 645 nm
are ten times too large; divided by ten they continue the fall.) -/
theorem observer_step : (cmf .deg2 630).2.2 = 5 * (cmf .deg2 625).2.2 ∧ 0 < (cmf .deg2 625).2.2 ∧ (cmf .deg2 650).2.2 = 0 ∧
    (cmf .deg2 630).2.2 / 10 < (cmf .deg2 625).2.2 := by
  have h : ((clrObsGet .deg2).getD 54 (0, 0, 0)).2.2 = 1 / 2000 ∧ ((clrObsGet .deg2).getD 53 (0, 0, 0)).2.2 = 1 / 10000 ∧ ((clrObsGet .deg2).getD 58 (0, 0, 0)).2.2 = 0 := by decide +kernel
  unfold cmf
  simp only [Nat.reduceSub, Nat.reduceDiv]
  rw [h.1, h.2.1, h.2.2]
  norm_num

/-- C170. Every kind of step occurs, and for the 10° observer there is no exception. -/
example : gridNm 3 < (xTurns .deg10).1 ∧ (xTurns .deg10).1 ≤ gridNm 20 ∧ gridNm 20 < (xTurns .deg10).2.1 ∧ (xTurns .deg10).2.2 ≤ gridNm 80 ∧ ¬(Obs.deg10 = .deg2 ∧ gridNm 80 = 760) := by decide

end Verif
