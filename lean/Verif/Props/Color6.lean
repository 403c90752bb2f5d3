import Verif.Props.Color5

/-!
# The shape of the luminous efficiency functions and of the observers (C156)
-/

namespace Verif

open Out XR

/-- The wavelength of the largest efficiency: 505 nm for the dark-adapted eye, 555 nm for the light-adapted one. -/
def peakNm : Lef → ℕ
  | .scotopic => 505
  | _ => 555

/-- Its entry in the table. -/
def lefPeak : Lef → ℕ
  | .scotopic => 25
  | _ => 35

theorem lef_steps (lef : Lef) : ∀ i < 80, if i < lefPeak lef then ((clrLefGet lef).getD i (0, 0)).2 ≤ ((clrLefGet lef).getD (i + 1) (0, 0)).2
    else ((clrLefGet lef).getD (i + 1) (0, 0)).2 ≤ ((clrLefGet lef).getD i (0, 0)).2 := by
  cases lef <;> decide +kernel

theorem lef_ends (lef : Lef) : 0 ≤ ((clrLefGet lef).getD 0 (0, 0)).2 ∧ 0 ≤ ((clrLefGet lef).getD 80 (0, 0)).2 := by
  cases lef <;> decide +kernel

theorem eff_up (lef : Lef) {i : ℕ} (h : i < lefPeak lef) : efficiency lef i ≤ efficiency lef (i + 1) := by
  have h8 : i < 80 := h.trans (by cases lef <;> decide)
  have := lef_steps lef i h8
  rw [if_pos h] at this
  unfold efficiency
  exact_mod_cast this

theorem eff_down (lef : Lef) {i : ℕ} (h : lefPeak lef ≤ i) (h8 : i < 80) : efficiency lef (i + 1) ≤ efficiency lef i := by
  have := lef_steps lef i h8
  rw [if_neg (by omega)] at this
  unfold efficiency
  exact_mod_cast this

/-- What `zsl_clr_lef_lerp` returns. -/
noncomputable def lefAt (lef : Lef) (nm : ℕ) : ℝ :=
  if nm < 380 ∨ 780 < nm then 0 else efficiency lef ((nm - 380) / 5) +
      ((nm - 380) % 5 : ℕ) / 5 * (efficiency lef ((nm - 380) / 5 + 1) - efficiency lef ((nm - 380) / 5))

theorem lefAt_spec (lef : Lef) (nm : ℕ) : clrLefLerp lef nm = ok (0, fin (lefAt lef nm)) := by
  unfold lefAt
  split
  · exact lef_outside lef nm ‹_›
  · exact lef_correct lef nm (by omega)

theorem lefAt_grid (lef : Lef) {i : ℕ} (hi : i < 81) : lefAt lef (380 + 5 * i) = efficiency lef i := by
  rw [lefAt, if_neg (by omega)]
  simp

/-- One nanometre further the value moves towards the next entry. -/
theorem lefAt_step (lef : Lef) {nm : ℕ} (h1 : 380 ≤ nm) (h2 : nm < 780) :
    lefAt lef (nm + 1) - lefAt lef nm = (efficiency lef ((nm - 380) / 5 + 1) - efficiency lef ((nm - 380) / 5)) / 5 := by
  rw [lefAt, lefAt, if_neg (by omega), if_neg (by omega), Nat.sub_add_comm h1]
  generalize nm - 380 = j
  by_cases h : j % 5 = 4
  · have e1 : (j + 1) / 5 = j / 5 + 1 := by omega
    have e2 : (j + 1) % 5 = 0 := by omega
    rw [e1, e2, h]
    push_cast
    ring
  · have e1 : (j + 1) / 5 = j / 5 := by omega
    have e2 : (j + 1) % 5 = j % 5 + 1 := by omega
    rw [e1, e2]
    push_cast
    ring

theorem lefAt_up (lef : Lef) {nm : ℕ} (h : nm < 380 + 5 * lefPeak lef) : lefAt lef nm ≤ lefAt lef (nm + 1) := by
  have hp : lefPeak lef ≤ 35 := by cases lef <;> decide
  rcases Nat.lt_or_ge nm 380 with h0 | h0
  · rcases Nat.lt_or_ge (nm + 1) 380 with h1 | h1
    · rw [lefAt, lefAt, if_pos (Or.inl h0), if_pos (Or.inl h1)]
    · have : nm + 1 = 380 + 5 * 0 := by omega
      rw [this, lefAt_grid lef (by omega), lefAt, if_pos (Or.inl h0)]
      have := (lef_ends lef).1
      unfold efficiency
      exact_mod_cast this
  · have := lefAt_step lef h0 (by omega)
    have := eff_up lef (i := (nm - 380) / 5) (by omega)
    linarith

theorem lefAt_down (lef : Lef) {nm : ℕ} (h : 380 + 5 * lefPeak lef ≤ nm) : lefAt lef (nm + 1) ≤ lefAt lef nm := by
  rcases Nat.lt_or_ge nm 780 with h0 | h0
  · have := lefAt_step lef (nm := nm) (by omega) h0
    have := eff_down lef (i := (nm - 380) / 5) (by omega) (by omega)
    linarith
  · rcases Nat.lt_or_ge 780 nm with h1 | h1
    · rw [lefAt, lefAt, if_pos (by omega), if_pos (by omega)]
    · have : nm = 380 + 5 * 80 := by omega
      rw [this, lefAt_grid lef (by omega), lefAt, if_pos (by omega)]
      have := (lef_ends lef).2
      unfold efficiency
      exact_mod_cast this

theorem lefAt_mono (lef : Lef) {a b : ℕ} (h : a ≤ b) (hb : b ≤ 380 + 5 * lefPeak lef) : lefAt lef a ≤ lefAt lef b := by
  induction b, h using Nat.le_induction with
  | base => exact le_rfl
  | succ n hn ih => exact (ih (by omega)).trans (lefAt_up lef (by omega))

theorem lefAt_anti (lef : Lef) {a b : ℕ} (h : a ≤ b) (ha : 380 + 5 * lefPeak lef ≤ a) : lefAt lef b ≤ lefAt lef a := by
  induction b, h using Nat.le_induction with
  | base => exact le_rfl
  | succ n hn ih => exact (lefAt_down lef (by omega)).trans ih

theorem lefAt_nonneg (lef : Lef) (nm : ℕ) : 0 ≤ lefAt lef nm := by
  rcases le_total nm (380 + 5 * lefPeak lef) with h | h
  · refine le_trans (le_of_eq ?_) (lefAt_mono lef (Nat.zero_le nm) h)
    rw [lefAt, if_pos (by omega)]
  · refine le_trans (le_of_eq ?_) (lefAt_anti lef (Nat.le_add_right nm 781) h)
    rw [lefAt, if_pos (by omega)]

theorem lefAt_le_peak (lef : Lef) (nm : ℕ) : lefAt lef nm ≤ lefAt lef (380 + 5 * lefPeak lef) := by
  rcases le_total nm (380 + 5 * lefPeak lef) with h | h
  · exact lefAt_mono lef h le_rfl
  · exact lefAt_anti lef h le_rfl

/-- C156. Of two wavelengths on the short side of the peak (505 nm dark-adapted, 555 nm light-adapted) the longer one has the larger
efficiency. -/
theorem lef_rises (lef : Lef) {a b : ℕ} (h : a ≤ b) (hb : b ≤ peakNm lef) :
    ∃ x y : ℝ, clrLefLerp lef a = ok (0, fin x) ∧ clrLefLerp lef b = ok (0, fin y) ∧ 0 ≤ x ∧ x ≤ y := by
  refine ⟨_, _, lefAt_spec lef a, lefAt_spec lef b, lefAt_nonneg lef a, lefAt_mono lef h ?_⟩
  cases lef <;> simpa [lefPeak, peakNm] using hb

/-- C156. Of two wavelengths on the long side of the peak the longer one has the smaller efficiency. -/
theorem lef_falls (lef : Lef) {a b : ℕ} (h : a ≤ b) (ha : peakNm lef ≤ a) :
    ∃ x y : ℝ, clrLefLerp lef a = ok (0, fin x) ∧ clrLefLerp lef b = ok (0, fin y) ∧ 0 ≤ y ∧ y ≤ x := by
  refine ⟨_, _, lefAt_spec lef a, lefAt_spec lef b, lefAt_nonneg lef b, lefAt_anti lef h ?_⟩
  cases lef <;> simpa [lefPeak, peakNm] using ha

/-- C156. The light-adapted efficiency is between 0 and 1 at every wavelength. -/
theorem lef_photopic_unit_partial (nm : ℕ) : ∃ x : ℝ, clrLefLerp .photopic nm = ok (0, fin x) ∧ 0 ≤ x ∧ x ≤ 1 := by
  refine ⟨_, lefAt_spec .photopic nm, lefAt_nonneg _ nm, (lefAt_le_peak _ nm).trans (le_of_eq ?_)⟩
  have e : (clrLefGet .photopic).getD 35 (0, 0) = (555, 1) := by decide +kernel
  rw [lefAt_grid _ (by decide), show lefPeak .photopic = 35 from rfl, efficiency, e]
  norm_num

/-- C156. The dark-adapted efficiency is not: it is tabulated in thousandths, so that it is 998 at its peak where the light-adapted
one is 1. -/
theorem lef_scotopic_not_unit : clrLefLerp .scotopic 505 = ok (0, fin 998) ∧
    ∀ nm, ∃ x : ℝ, clrLefLerp .scotopic nm = ok (0, fin x) ∧ 0 ≤ x ∧ x ≤ 998 := by
  have e : (clrLefGet .scotopic).getD 25 (0, 0) = (505, 998) := by decide +kernel
  have e' : lefAt .scotopic 505 = 998 := by
    have := lefAt_grid .scotopic (i := 25) (by decide)
    rw [show 380 + 5 * 25 = 505 from rfl, efficiency, e] at this
    rw [this]
    norm_num
  refine ⟨by rw [lefAt_spec, e'], fun nm => ⟨_, lefAt_spec _ nm, lefAt_nonneg _ nm, ?_⟩⟩
  have := lefAt_le_peak .scotopic nm
  rwa [show 380 + 5 * lefPeak .scotopic = 505 from rfl, e'] at this

theorem lef_ybar : ∀ i < 81, |((clrLefGet .photopic).getD i (0, 0)).2 - ((clrObsGet .deg2).getD (i + 4) (0, 0, 0)).2.1| ≤ 0.016 ∧
    ((i = 0 ∨ 16 ≤ i) → |((clrLefGet .photopic).getD i (0, 0)).2 - ((clrObsGet .deg2).getD (i + 4) (0, 0, 0)).2.1| ≤ 0.001) := by decide +kernel

/-- C156. The light-adapted efficiency is the luminance function of the 2° observer, up to 0.016 everywhere (the 1988 revision of the
blue end) and up to 0.001 from 460 nm on. -/
theorem lef_photopic_observer {i : ℕ} (hi : i < 81) : ∃ x : ℝ, clrLefLerp .photopic (380 + 5 * i) = ok (0, fin x) ∧
    |x - (cmf .deg2 (380 + 5 * i)).2.1| ≤ 0.016 ∧ (16 ≤ i → |x - (cmf .deg2 (380 + 5 * i)).2.1| ≤ 0.001) := by
  refine ⟨_, lefAt_spec _ _, ?_⟩
  rw [lefAt_grid _ hi]
  obtain ⟨h1, h2⟩ := lef_ybar i hi
  have e : (380 + 5 * i - 360) / 5 = i + 4 := by omega
  unfold cmf efficiency
  rw [e]
  simp only
  generalize ((clrLefGet .photopic).getD i (0, 0)).2 = a at *
  generalize ((clrObsGet .deg2).getD (i + 4) (0, 0, 0)).2.1 = b at *
  constructor
  · have : ((|a - b| : ℚ) : ℝ) ≤ ((0.016 : ℚ) : ℝ) := by exact_mod_cast h1
    push_cast at this
    norm_num at this ⊢
    exact this
  · intro h
    have : ((|a - b| : ℚ) : ℝ) ≤ ((0.001 : ℚ) : ℝ) := by exact_mod_cast h2 (Or.inr h)
    push_cast at this
    norm_num at this ⊢
    exact this

/-- Where the luminance function of an observer peaks: at 555 nm, entry 39. -/
theorem ybar_steps (obs : Obs) : ∀ i < 94, if i < 39 then ((clrObsGet obs).getD i (0, 0, 0)).2.1 ≤ ((clrObsGet obs).getD (i + 1) (0, 0, 0)).2.1
    else ((clrObsGet obs).getD (i + 1) (0, 0, 0)).2.1 ≤ ((clrObsGet obs).getD i (0, 0, 0)).2.1 := by
  cases obs <;> decide +kernel

/-- C156. The luminance functions of both observers rise up to 555 nm and fall beyond. -/
theorem ybar_unimodal (obs : Obs) {i : ℕ} (hi : i < 94) :
    (i < 39 → (cmf obs (gridNm i)).2.1 ≤ (cmf obs (gridNm (i + 1))).2.1) ∧ (39 ≤ i → (cmf obs (gridNm (i + 1))).2.1 ≤ (cmf obs (gridNm i)).2.1) := by
  have e : ∀ j, (gridNm j - 360) / 5 = j := by intro j; unfold gridNm; omega
  have := ybar_steps obs i hi
  unfold cmf
  rw [e i, e (i + 1)]
  simp only
  constructor
  · intro h
    rw [if_pos h] at this
    exact_mod_cast this
  · intro h
    rw [if_neg (by omega)] at this
    exact_mod_cast this

/-- C156. The x function of the 2° observer rises once on its way down at the red end: the entry of 765 nm (0.000177) is above those of
760 nm and 770 nm. -/
theorem observer_bump : (cmf .deg2 760).1 < (cmf .deg2 765).1 ∧ (cmf .deg2 770).1 < (cmf .deg2 760).1 := by
  have h : ((clrObsGet .deg2).getD 80 (0, 0, 0)).1 < ((clrObsGet .deg2).getD 81 (0, 0, 0)).1 ∧
      ((clrObsGet .deg2).getD 82 (0, 0, 0)).1 < ((clrObsGet .deg2).getD 80 (0, 0, 0)).1 := by decide +kernel
  unfold cmf
  simp only [Nat.reduceSub, Nat.reduceDiv]
  exact_mod_cast h

/-- C156. Wavelengths on either side of the peak. -/
example : (500 : ℕ) ≤ 505 ∧ 505 ≤ peakNm .scotopic ∧ peakNm .photopic ≤ 600 := by decide

end Verif
