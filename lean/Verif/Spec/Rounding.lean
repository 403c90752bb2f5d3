import Mathlib.Analysis.SpecialFunctions.Log.Base
import Mathlib.Data.Int.Log
import Verif.Base.FX

/-!
# Rounding errors

The vocabulary of the theorems about rounding errors, and a rounding which exists.
-/

set_option linter.unusedSectionVars false

namespace Verif

/-- The factor `t` is a product of at most `k` errors of one rounding. -/
def Close (u : ℝ) (k : ℕ) (t : ℝ) : Prop := (1 - u) ^ k ≤ t ∧ t ≤ ((1 - u) ^ k)⁻¹

/-- The relative error of `k` roundings. -/
noncomputable def gam (u : ℝ) (k : ℕ) : ℝ := ((1 - u) ^ k)⁻¹ - 1

/-- `x` is `y` up to `k` roundings. -/
def Near (u : ℝ) (k : ℕ) (x y : ℝ) : Prop := ∃ t, Close u k t ∧ x = y * t

variable {u : ℝ} {k l : ℕ} {s t x y : ℝ}

section
variable (h0 : 0 ≤ u) (h1 : u < 1)
include h0 h1

omit h0 in
theorem one_sub_pow_pos (k : ℕ) : 0 < (1 - u) ^ k := pow_pos (by linarith) k

theorem Close.pos (h : Close u k t) : 0 < t := (one_sub_pow_pos h1 k).trans_le h.1

theorem close_one : Close u k 1 :=
  ⟨pow_le_one₀ (by linarith) (by linarith), (one_le_inv₀ (one_sub_pow_pos h1 k)).2 (pow_le_one₀ (by linarith) (by linarith))⟩

theorem Close.mul (hs : Close u k s) (ht : Close u l t) : Close u (k + l) (s * t) := by
  have p := one_sub_pow_pos h1
  constructor
  · rw [pow_add]
    exact mul_le_mul hs.1 ht.1 (p l).le (hs.pos h0 h1).le
  · rw [pow_add, mul_inv]
    exact mul_le_mul hs.2 ht.2 (ht.pos h0 h1).le (inv_pos.2 (p k)).le

theorem Close.inv (hs : Close u k s) : Close u k s⁻¹ := by
  have p := one_sub_pow_pos h1 k
  constructor
  · rw [← inv_inv ((1 - u) ^ k)]
    exact inv_anti₀ (hs.pos h0 h1) hs.2
  · exact inv_anti₀ p hs.1

theorem Close.mono (hs : Close u k s) (hkl : k ≤ l) : Close u l s := by
  have : (1 - u) ^ l ≤ (1 - u) ^ k := pow_le_pow_of_le_one (by linarith) (by linarith) hkl
  exact ⟨this.trans hs.1, hs.2.trans (inv_anti₀ (one_sub_pow_pos h1 l) this)⟩

theorem Close.sqrt (hs : Close u k s) : Close u k (Real.sqrt s) := by
  have p := one_sub_pow_pos h1 k
  have q : (1 - u) ^ k ≤ 1 := pow_le_one₀ (by linarith) (by linarith)
  constructor
  · refine Real.le_sqrt_of_sq_le ?_
    nlinarith [hs.1]
  · refine Real.sqrt_le_iff.2 ⟨(inv_pos.2 p).le, hs.2.trans ?_⟩
    have : 1 ≤ ((1 - u) ^ k)⁻¹ := (one_le_inv₀ p).2 q
    nlinarith

theorem gam_nonneg (k : ℕ) : 0 ≤ gam u k := by
  have := (close_one (k := k) h0 h1).2
  unfold gam
  linarith

/-- A factor is within `gam u k` of one. -/
theorem Close.abs_sub_one (hs : Close u k s) : |s - 1| ≤ gam u k := by
  have p := one_sub_pow_pos h1 k
  unfold gam
  rw [abs_le]
  refine ⟨?_, by linarith [hs.2]⟩
  have h2 : 2 ≤ (1 - u) ^ k + ((1 - u) ^ k)⁻¹ := by
    have : ((1 - u) ^ k) * ((1 - u) ^ k)⁻¹ = 1 := mul_inv_cancel₀ p.ne'
    nlinarith [sq_nonneg ((1 - u) ^ k - ((1 - u) ^ k)⁻¹), inv_pos.2 p]
  linarith [hs.1]

theorem Near.abs_sub_le (h : Near u k x y) : |x - y| ≤ gam u k * |y| := by
  obtain ⟨t, ht, rfl⟩ := h
  have : y * t - y = (t - 1) * y := by ring
  rw [this, abs_mul]
  exact mul_le_mul_of_nonneg_right (ht.abs_sub_one h0 h1) (abs_nonneg _)

omit h0 in
/-- The relative error of `k` roundings is at most `k u / (1 - k u)`. -/
theorem gam_le (h : (k : ℝ) * u < 1) : gam u k ≤ k * u / (1 - k * u) := by
  have hb : 1 - (k : ℝ) * u ≤ (1 - u) ^ k := by
    have := one_add_mul_le_pow (show (-2 : ℝ) ≤ -u by linarith) k
    have e : (1 + -u) = 1 - u := by ring
    rw [e] at this
    linarith
  have hp : 0 < 1 - (k : ℝ) * u := by linarith
  unfold gam
  have := inv_anti₀ hp hb
  have e : (k : ℝ) * u / (1 - k * u) = (1 - k * u)⁻¹ - 1 := by
    field_simp
    ring
  rw [e]
  linarith

end

namespace Rounding

variable (F : Rounding)

theorem rnd_zero : F.rnd 0 = 0 := by
  have := F.err 0
  simpa using this

/-- One rounding. -/
theorem near (x : ℝ) : Near F.u 1 (F.rnd x) x := by
  have h0 := F.u_nonneg
  have h1 := F.u_lt
  rcases eq_or_ne x 0 with rfl | hx
  · exact ⟨1, close_one h0 h1, by rw [F.rnd_zero, zero_mul]⟩
  · refine ⟨F.rnd x / x, ?_, by field_simp⟩
    have e : |F.rnd x / x - 1| ≤ F.u := by
      rw [show F.rnd x / x - 1 = (F.rnd x - x) / x by field_simp, abs_div, div_le_iff₀ (abs_pos.2 hx)]
      exact F.err x
    rw [abs_le] at e
    constructor
    · rw [pow_one]
      linarith
    · rw [pow_one, ← one_div, le_div_iff₀ (by linarith)]
      nlinarith

theorem rnd_nonneg {x : ℝ} (h : 0 ≤ x) : 0 ≤ F.rnd x := by
  rw [← F.rnd_zero]
  exact F.mono h

theorem rnd_nonpos {x : ℝ} (h : x ≤ 0) : F.rnd x ≤ 0 := by
  rw [← F.rnd_zero]
  exact F.mono h

theorem rnd_pos {x : ℝ} (h : 0 < x) : 0 < F.rnd x := by
  obtain ⟨t, ht, e⟩ := F.near x
  rw [e]
  exact mul_pos h (ht.pos F.u_nonneg F.u_lt)

theorem rnd_ne_zero {x : ℝ} (h : x ≠ 0) : F.rnd x ≠ 0 := by
  obtain ⟨t, ht, e⟩ := F.near x
  rw [e]
  exact mul_ne_zero h (ht.pos F.u_nonneg F.u_lt).ne'

theorem rnd_eq_zero {x : ℝ} : F.rnd x = 0 ↔ x = 0 :=
  ⟨fun h => by_contra fun hx => F.rnd_ne_zero hx h, fun h => h ▸ F.rnd_zero⟩

end Rounding

end Verif
